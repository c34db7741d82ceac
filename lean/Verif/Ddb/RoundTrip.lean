import Verif.Ddb.NormalProps
import Verif.Scan.ChunkMode

/-!
# There and back again (C50, C52)

What `convert_normal_to_ddb` writes is a stream of JSON documents that `convert_ddb_to_normal` reads; the result is the stream that
it was made of, up to space between tokens. The first part is about documents only, the converters come last.
-/

namespace Verif.Ddb

open Verif.RJiter Verif.Scan

/-! ## Documents without space -/

mutual
/-- The value without space between tokens. -/
def bare : Val → Val
  | .atom tok => .atom tok
  | .arr _ items => .arr [] (bareItems items)
  | .obj _ members => .obj [] (bareMembers members)
@[inherit_doc bare]
def bareItems : Items → Items
  | .nil => .nil
  | .cons _ v _ more => .cons [] (bare v) [] (bareItems more)
@[inherit_doc bare]
def bareMembers : Members → Members
  | .nil => .nil
  | .cons _ k _ _ v _ more => .cons [] k [] [] (bare v) [] (bareMembers more)
end

/-- A text with a line for each document (with more lines if the documents are indented). -/
def lines : List Val → Bytes
  | [] => []
  | v :: vs => v.text ++ 10 :: lines vs

/-! ## The typed form as DynamoDB JSON -/

/-- The space in `wrap`. -/
def spaceOf (p : Bool) (d : Nat) : Sp := ⟨nl p ++ ind p (d + 1), [], [], nl p ++ ind p d⟩

/-- The typed form of an atom. -/
def toAtom (sp : Sp) : Bytes → DVal
  | 34 :: r => .string sp false r.dropLast
  | 116 :: _ => .bool sp true
  | 102 :: _ => .bool sp false
  | 110 :: _ => .null sp
  | tok => .number sp tok

mutual
/-- The typed form of a value. -/
def toD (p : Bool) (d : Nat) : Val → DVal
  | .atom tok => toAtom (spaceOf p d) tok
  | .arr _ items => .list (spaceOf p d) (closeItems (nl p ++ (nl p ++ ind p (d + 1))) items) (toDItems p (d + 1) (nl p ++ ind p (d + 1)) items)
  | .obj _ members => .map (spaceOf p d) (closeMembers (nl p ++ (nl p ++ ind p (d + 1))) members) (toDMembers p (d + 2) (nl p ++ ind p (d + 1)) members)
@[inherit_doc toD]
def toDItems (p : Bool) (d : Nat) (close : Bytes) : Items → DItems
  | .nil => .nil
  | .cons _ v _ more => .cons (nl p) (toD p d v) (closeItems close more) (toDItems p d close more)
@[inherit_doc toD]
def toDMembers (p : Bool) (d : Nat) (close : Bytes) : Members → DMembers
  | .nil => .nil
  | .cons _ k _ _ v _ more => .cons (nl p ++ ind p d) k [] [] (toD p d v) (closeMembers close more) (toDMembers p d close more)
end

/-- The typed form of a document that is an object. -/
def toDoc (item p : Bool) (members : Members) : DDoc :=
  if item then .item (spaceOf p 0) (closeMembers (nl p ++ (nl p ++ ind p 1)) members) (toDMembers p 2 (nl p ++ ind p 1) members)
  else .bare (closeMembers (nl p ++ nl p) members) (toDMembers p 1 (nl p) members)

/-- The kinds of atoms. -/
inductive AtomKind : Bytes → Prop where
  | string (body : Bytes) (h : RawBody body) : AtomKind (quoted body)
  | true : AtomKind [116, 114, 117, 101]
  | false : AtomKind [102, 97, 108, 115, 101]
  | null : AtomKind [110, 117, 108, 108]
  | number (tok : Bytes) (h : Number tok) : AtomKind tok

theorem atomKind {num str : Bytes → Prop} {tok : Bytes} (h : IsAtom num str tok) : AtomKind tok := by
  cases h with
  | null => exact .null
  | true => exact .true
  | false => exact .false
  | number _ h => exact .number _ h
  | string body h => exact .string body h

theorem number_kind {tok : Bytes} (h : Number tok) (sp : Sp) :
    atomType tok = ([78], quoted tok) ∧ toAtom sp tok = .number sp tok := by
  obtain ⟨c, r, rfl, hc⟩ := number_first h
  have h1 : c ≠ 34 := by rintro rfl; exact absurd hc (by decide)
  have h2 : c ≠ 116 := by rintro rfl; exact absurd hc (by decide)
  have h3 : c ≠ 102 := by rintro rfl; exact absurd hc (by decide)
  have h4 : c ≠ 110 := by rintro rfl; exact absurd hc (by decide)
  constructor
  · unfold atomType
    split <;> simp_all [quoted]
  · unfold toAtom
    split <;> simp_all

theorem toAtom_json {tok : Bytes} (h : AtomKind tok) (p : Bool) (d : Nat) :
    (toAtom (spaceOf p d) tok).json = wrap p d (atomType tok).1 (.atom (atomType tok).2) := by
  cases h with
  | string body h => simp [quoted, toAtom, DVal.json, Sp.wrap, atomType, wrap, spaceOf]
  | true => rfl
  | false => rfl
  | null => rfl
  | number _ h =>
    rw [(number_kind h (spaceOf p d)).1, (number_kind h (spaceOf p d)).2]
    rfl

theorem toAtom_plain {tok : Bytes} (h : AtomKind tok) (sp : Sp) (p : Bool) (d : Nat) : (toAtom sp tok).plain p d = .atom tok := by
  cases h with
  | string body h => simp [quoted, toAtom, DVal.plain]
  | true => rfl
  | false => rfl
  | null => rfl
  | number _ h =>
    rw [(number_kind h sp).2]
    rfl

theorem toAtom_names {tok : Bytes} (sp : Sp) (P : Bytes → Prop) : (toAtom sp tok).Names P := by
  unfold toAtom
  split <;> trivial

theorem toAtom_orderly {tok : Bytes} (sp : Sp) : (toAtom sp tok).Orderly ∧ (toAtom sp tok).isSet = false := by
  unfold toAtom
  split <;> exact ⟨trivial, rfl⟩

theorem toD_isSet (p : Bool) (d : Nat) (v : Val) : (toD p d v).isSet = false := by
  cases v with
  | atom tok => exact (toAtom_orderly _).2
  | arr w items => rfl
  | obj w members => rfl

section
variable {M : Mode} {L : Nat} (p : Bool)

mutual
theorem toD_json (d : Nat) : ∀ (v : Val), v.Meets (rules M L) → (toD p d v).json = typed p d v
  | .atom tok, h => by
    simp only [toD, typed]
    exact toAtom_json (atomKind (show IsAtom _ _ tok from h)) p d
  | .arr w items, h => by
    simp only [Val.Meets] at h
    simp only [toD, typed, DVal.json, toDItems_json (d + 1) _ items h.2]
    rfl
  | .obj w members, h => by
    simp only [Val.Meets] at h
    simp only [toD, typed, DVal.json, toDMembers_json (d + 2) _ members h.2]
    rfl
theorem toDItems_json (d : Nat) (close : Bytes) : ∀ (is : Items), is.Meets (rules M L) → (toDItems p d close is).json = typedItems p d close is
  | .nil, _ => by simp only [toDItems, DItems.json, typedItems]
  | .cons b v a more, h => by
    simp only [Items.Meets] at h
    simp only [toDItems, DItems.json, typedItems, toD_json d v h.2.1, toDItems_json d close more h.2.2.2]
theorem toDMembers_json (d : Nat) (close : Bytes) : ∀ (ms : Members), ms.Meets (rules M L) → (toDMembers p d close ms).json = typedMembers p d close ms
  | .nil, _ => by simp only [toDMembers, DMembers.json, typedMembers]
  | .cons b k m m' v a more, h => by
    simp only [Members.Meets] at h
    simp only [toDMembers, DMembers.json, typedMembers, toD_json d v h.2.2.2.2.1, toDMembers_json d close more h.2.2.2.2.2.2.2]
end

mutual
theorem toD_plain (d e : Nat) : ∀ (v : Val), v.Meets (rules M L) → (toD p d v).plain false e = bare v
  | .atom tok, h => by
    simp only [toD, bare]
    exact toAtom_plain (atomKind (show IsAtom _ _ tok from h)) _ false e
  | .arr w items, h => by
    simp only [Val.Meets] at h
    simp only [toD, bare, DVal.plain, toDItems_plain (d + 1) e _ items h.2]
  | .obj w members, h => by
    simp only [Val.Meets] at h
    simp only [toD, bare, DVal.plain, nl, ind, Bool.false_eq_true, if_false, List.append_nil, ToNormal.close_empty, toDMembers_plain (d + 2) (e + 1) _ members h.2]
theorem toDItems_plain (d e : Nat) (close : Bytes) : ∀ (is : Items), is.Meets (rules M L) → (toDItems p d close is).plain false e [] = bareItems is
  | .nil, _ => by simp only [toDItems, DItems.plain, bareItems]
  | .cons b v a more, h => by
    simp only [Items.Meets] at h
    have := toDItems_plain d e close more h.2.2.2
    simp only [toDItems, DItems.plain, bareItems, toD_plain d e v h.2.1, nl, Bool.false_eq_true, if_false]
    rw [this]
theorem toDMembers_plain (d e : Nat) (close : Bytes) : ∀ (ms : Members), ms.Meets (rules M L) → (toDMembers p d close ms).plain false e [] = bareMembers ms
  | .nil, _ => by simp only [toDMembers, DMembers.plain, bareMembers]
  | .cons b k m m' v a more, h => by
    simp only [Members.Meets] at h
    have := toDMembers_plain d e close more h.2.2.2.2.2.2.2
    simp only [toDMembers, DMembers.plain, bareMembers, toD_plain d e v h.2.2.2.2.1, this, nl, ind, Bool.false_eq_true, if_false, List.append_nil, ToNormal.close_empty]
end

end

/-! ## Indentation changes only space -/

theorem elemsPlain_bare (p : Bool) (text : Bytes → Bytes) : ∀ (es : List Elem) (b : Bytes), bareItems (elemsPlain p text b es) = elemsPlain false text [] es
  | [], _ => rfl
  | e :: es, b => by
    simp only [elemsPlain, bareItems, bare, elemsPlain_bare p text es]
    rfl

mutual
theorem plain_bare (p : Bool) : ∀ (V : DVal) (d e : Nat), bare (V.plain p d) = V.plain false e
  | .string _ _ _, _, _ => rfl
  | .number _ _, _, _ => rfl
  | .bool _ _, _, _ => rfl
  | .null _, _, _ => rfl
  | .strings _ _ _ es, _, _ => by simp only [DVal.plain, bare, elemsPlain_bare]
  | .numbers _ _ es, _, _ => by simp only [DVal.plain, bare, elemsPlain_bare]
  | .list _ _ is, d, e => by simp only [DVal.plain, bare, itemsPlain_bare p is d e]
  | .map _ _ ms, d, e => by
    simp only [DVal.plain, bare, membersPlain_bare p ms (d + 1) (e + 1), nl, ind, Bool.false_eq_true, if_false, List.append_nil, ToNormal.close_empty]
theorem itemsPlain_bare (p : Bool) : ∀ (is : DItems) (d e : Nat) (b : Bytes), bareItems (is.plain p d b) = is.plain false e []
  | .nil, _, _, _ => by simp only [DItems.plain, bareItems]
  | .cons _ v _ more, d, e, b => by
    simp only [DItems.plain, bareItems, plain_bare p v d e, itemsPlain_bare p more d e, nl, Bool.false_eq_true, if_false]
theorem membersPlain_bare (p : Bool) : ∀ (ms : DMembers) (d e : Nat) (b : Bytes), bareMembers (ms.plain p d b) = ms.plain false e []
  | .nil, _, _, _ => by simp only [DMembers.plain, bareMembers]
  | .cons _ k _ _ v _ more, d, e, b => by
    simp only [DMembers.plain, bareMembers, plain_bare p v d e, membersPlain_bare p more d e, nl, ind, Bool.false_eq_true, if_false, List.append_nil, ToNormal.close_empty]
end

theorem docPlain_bare (p : Bool) (d : DDoc) : bare (d.plain p) = d.plain false := by
  cases d <;>
  simp only [DDoc.plain, bare, membersPlain_bare p _ 1 1, nl, Bool.false_eq_true, if_false, List.append_nil, ToNormal.close_empty]

theorem closeItems_empty (is : Items) : closeItems [] is = [] := by cases is <;> rfl
theorem closeMembers_empty (ms : Members) : closeMembers [] ms = [] := by cases ms <;> rfl

mutual
theorem typed_bare (p : Bool) : ∀ (v : Val) (d e : Nat), bare (typed p d v) = typed false e v
  | .atom tok, d, e => by
    simp [typed, wrap, bare, bareMembers, nl, ind]
  | .arr w is, d, e => by
    simp [typed, wrap, bare, bareMembers, nl, ind, typedItems_bare p is (d + 1) (e + 1), closeItems_empty]
  | .obj w ms, d, e => by
    simp [typed, wrap, bare, bareMembers, nl, ind, typedMembers_bare p ms (d + 2) (e + 2), closeMembers_empty]
theorem typedItems_bare (p : Bool) : ∀ (is : Items) (d e : Nat) (c : Bytes), bareItems (typedItems p d c is) = typedItems false e [] is
  | .nil, _, _, _ => by simp only [typedItems, bareItems]
  | .cons _ v _ more, d, e, c => by
    simp [typedItems, bareItems, nl, typed_bare p v d e, typedItems_bare p more d e, closeItems_empty]
theorem typedMembers_bare (p : Bool) : ∀ (ms : Members) (d e : Nat) (c : Bytes), bareMembers (typedMembers p d c ms) = typedMembers false e [] ms
  | .nil, _, _, _ => by simp only [typedMembers, bareMembers]
  | .cons _ k _ _ v _ more, d, e, c => by
    simp [typedMembers, bareMembers, nl, ind, typed_bare p v d e, typedMembers_bare p more d e, closeMembers_empty]
end

theorem typedDoc_object_bare (item p : Bool) (w : Bytes) (ms : Members) : bare (typedDoc item p (.obj w ms)) = typedDoc item false (.obj w ms) := by
  cases item
  · simp [typedDoc, bare, nl, typedMembers_bare p ms 1 1, closeMembers_empty]
  · simp [typedDoc, wrap, bare, bareMembers, nl, ind, typedMembers_bare p ms 2 2, closeMembers_empty]

theorem typedDoc_bare (item p : Bool) (v : Val) : bare (typedDoc item p v) = typedDoc item false v := by
  cases v with
  | atom tok => simp [typedDoc, bare, bareMembers, nl, ind]
  | arr w is => exact typed_bare p (.arr w is) 0 0
  | obj w ms => exact typedDoc_object_bare item p w ms

/-! ## The typed form is well-formed -/

/-- The rules of JSON alone. -/
def jsonRules : Rules := .json (fun _ => True) (fun _ => True) (fun _ _ => True) fun _ _ _ _ => True

/-- Rules that hold for the typed form of documents, `p` says whether it is indented. -/
structure Allows (p : Bool) (M : Mode) (L : Nat) (Rs : Rules) : Prop where
  string : ∀ body, RawBody body → M.str body → Rs.atom (quoted body)
  number : ∀ tok, Number tok → Rs.atom (quoted tok)
  true : Rs.atom [116, 114, 117, 101]
  false : Rs.atom [102, 97, 108, 115, 101]
  key : ∀ k m, (rules M L).key k m → Rs.key k []
  name : ∀ k, k ∈ [[83], [78], [66, 79, 79, 76], [78, 85, 76, 76], [76], [77], [73, 116, 101, 109]] → Rs.key k []
  head : ∀ a b c d, RawBody c → (p = Bool.true → b ≠ []) → Rs.head a b c d

theorem type_name {k : Bytes} (h : k ∈ [[83], [78], [66, 79, 79, 76], [78, 85, 76, 76], [76], [77], [73, 116, 101, 109]]) : RawBody k ∧ k.length ≤ 4 := by
  have : plainBody k = true ∧ k.length ≤ 4 := by
    simp only [List.mem_cons, List.not_mem_nil, or_false] at h
    rcases h with rfl | rfl | rfl | rfl | rfl | rfl | rfl <;> decide
  exact ⟨plainBody_ok this.1, this.2⟩

theorem digit_plain {c : Byte} (h : Digit c) : 32 ≤ c.toNat ∧ c.toNat < 128 ∧ c ≠ 34 ∧ c ≠ 92 := by
  unfold Digit at h
  refine ⟨by omega, by omega, ?_, ?_⟩ <;> (rintro rfl; exact absurd h (by decide))

/-- A number is the body of a string. -/
theorem number_raw {tok : Bytes} (h : Number tok) : RawBody tok := by
  refine raw_ascii tok fun c hc => ?_
  obtain ⟨m, i, f, e, rfl, hm, hi, hf, he⟩ := h
  simp only [List.mem_append] at hc
  rcases hc with hc | hc | hc | hc
  · rcases hm with rfl | rfl
    · simp at hc
    · simp at hc; subst hc; decide
  · rcases hi with rfl | hi
    · simp at hc; subst hc; decide
    · exact digit_plain (hi.1.2 c hc)
  · rcases hf with rfl | ⟨ds, rfl, hd⟩
    · simp at hc
    · rcases List.mem_cons.1 hc with rfl | hc
      · decide
      · exact digit_plain (hd.2 c hc)
  · rcases he with rfl | ⟨x, sg, ds, rfl, hx, hs, hd⟩
    · simp at hc
    · rcases List.mem_cons.1 hc with rfl | hc
      · rcases hx with rfl | rfl <;> decide
      · rcases List.mem_append.1 hc with hc | hc
        · rcases hs with rfl | rfl | rfl
          · simp at hc
          · simp at hc; subst hc; decide
          · simp at hc; subst hc; decide
        · exact digit_plain (hd.2 c hc)

theorem allows_json (p : Bool) (M : Mode) (L : Nat) : Allows p M L jsonRules :=
  ⟨fun body h _ => .string body h trivial, fun tok h => .string tok (number_raw h) trivial, .true, .false, fun _ _ h => ⟨h.1, trivial⟩,
   fun _ h => ⟨(type_name h).1, trivial⟩, fun _ _ _ _ _ _ => trivial⟩

/-- The rules of a mode for the typed form. -/
theorem allows_mode (p : Bool) (M M' : Mode) (L L' : Nat) (h8 : 8 ≤ L') (h : L ≤ L') (hs : ∀ body, RawBody body → M.str body → M'.str body)
    (hn : ∀ tok, Number tok → M'.str tok) (hh : ∀ a b c d, RawBody c → (p = true → b ≠ []) → M'.head a b c d) : Allows p M L (rules M' L') :=
  ⟨fun body h h' => .string body h (hs body h h'), fun tok h => .string tok (number_raw h) (hn tok h), .true, .false,
   fun k m hk => ⟨hk.1, by have : k.length + m.length + 4 ≤ L := hk.2; show k.length + 0 + 4 ≤ L'; omega⟩,
   fun k hk => ⟨(type_name hk).1, by have := (type_name hk).2; show k.length + 0 + 4 ≤ L'; omega⟩, hh⟩

/-- The typed form is read by a reader that delivers all of it at once, into a buffer that is large enough. -/
theorem allows_whole (p : Bool) (M : Mode) (L L' : Nat) (h8 : 8 ≤ L') (h : L ≤ L') : Allows p M L (rules wholeMode L') :=
  allows_mode p M _ L L' h8 h (fun _ _ _ => trivial) (fun _ _ => trivial) fun _ _ _ _ _ _ => trivial

/-- ASCII text is read in all chunks that do not end within the first key of an object that starts them, into a buffer that is large
enough. -/
theorem allows_chunk (p : Bool) (M : Mode) (L L' len : Nat) (h8 : 8 ≤ L') (h : L ≤ L') : Allows p M L (rules (chunkMode true true len) L') :=
  allows_mode p M _ L L' h8 h (fun _ _ _ => .inl rfl) (fun _ _ => .inl rfl) fun _ _ _ _ h _ _ => ⟨h, .inl rfl⟩

/-- Indented ASCII text is read in all chunks, into a buffer that has room for the longest key. -/
theorem allows_stream (M : Mode) (one : Bool) (L L' len : Nat) (h8 : 8 ≤ L') (h : L ≤ L') : Allows true M L (rules (streamMode true one len) L') :=
  allows_mode true M _ L L' h8 h (fun _ _ _ => .inl rfl) (fun _ _ => .inl rfl) fun _ _ _ _ _ h h0 => absurd h0 (h rfl)

theorem spaces_nl (p : Bool) : Spaces (nl p) := by
  cases p
  · exact spaces_nil
  · intro c hc
    simp [nl] at hc
    subst hc
    unfold Space
    decide

theorem spaces_ind (p : Bool) (d : Nat) : Spaces (ind p d) := by
  cases p
  · exact spaces_nil
  · intro c hc
    simp only [ind, if_true, List.mem_flatten] at hc
    obtain ⟨l, hl, hc⟩ := hc
    obtain rfl := List.eq_of_mem_replicate hl
    simp at hc
    subst hc
    unfold Space
    decide

theorem spaces_append {a b : Bytes} (ha : Spaces a) (hb : Spaces b) : Spaces (a ++ b) := fun c hc => (List.mem_append.1 hc).elim (ha c) (hb c)

theorem spaces_closeItems {close : Bytes} (h : Spaces close) (is : Items) : Spaces (closeItems close is) := by
  cases is
  · exact h
  · exact spaces_nil

theorem spaces_closeMembers {close : Bytes} (h : Spaces close) (ms : Members) : Spaces (closeMembers close ms) := by
  cases ms
  · exact h
  · exact spaces_nil

set_option linter.unusedSectionVars false

section
variable {M : Mode} {L : Nat} {Rs : Rules} {p : Bool} (A : Allows p M L Rs)
include A

theorem wrap_head {d : Nat} {name : Bytes} {v : Val} (hn : name ∈ [[83], [78], [66, 79, 79, 76], [78, 85, 76, 76], [76], [77], [73, 116, 101, 109]])
    (b : Bytes) : (wrap p d name v).HeadMeets Rs b :=
  A.head _ _ _ _ (type_name hn).1 (by rintro rfl; simp [nl])

theorem wrap_meets {d : Nat} {name : Bytes} {v : Val} (hn : name ∈ [[83], [78], [66, 79, 79, 76], [78, 85, 76, 76], [76], [77], [73, 116, 101, 109]])
    (hv : v.Meets Rs) (hh : v.HeadMeets Rs []) : (wrap p d name v).Meets Rs :=
  ⟨spaces_nil, spaces_append (spaces_nl p) (spaces_ind p _), A.name _ hn, spaces_nil, spaces_nil, hv, hh,
    spaces_append (spaces_nl p) (spaces_ind p _), trivial⟩

theorem atomType_meets {num : Bytes → Prop} {tok : Bytes} (h : IsAtom num M.str tok) :
    (atomType tok).1 ∈ [[83], [78], [66, 79, 79, 76], [78, 85, 76, 76], [76], [77], [73, 116, 101, 109]] ∧ Rs.atom (atomType tok).2 := by
  cases h with
  | string body h h' => exact ⟨by simp [atomType], A.string body h h'⟩
  | true => exact ⟨by decide, A.true⟩
  | false => exact ⟨by decide, A.false⟩
  | null => exact ⟨by decide, A.true⟩
  | number _ h =>
    rw [(number_kind h .no).1]
    exact ⟨by simp, A.number _ h⟩

theorem typed_head (v : Val) (d : Nat) (b : Bytes) (h : v.Meets (rules M L)) : (typed p d v).HeadMeets Rs b := by
  cases v with
  | atom tok =>
    simp only [typed]
    exact wrap_head A (atomType_meets A (show IsAtom _ _ tok from h)).1 b
  | arr w is =>
    simp only [typed]
    exact wrap_head A (by decide) b
  | obj w ms =>
    simp only [typed]
    exact wrap_head A (by decide) b

theorem typedMembers_head (ms : Members) (d : Nat) (c close b : Bytes) (h : ms.Meets (rules M L)) :
    (Val.obj (closeMembers c ms) (typedMembers p d close ms)).HeadMeets Rs b := by
  cases ms with
  | nil => simp only [typedMembers]; trivial
  | cons b' k m m' v a more =>
    simp only [Members.Meets] at h
    simp only [typedMembers]
    exact A.head _ _ _ _ h.2.1.1 (by rintro rfl; simp [nl])

mutual
theorem typed_meets : ∀ (v : Val) (d : Nat), v.Meets (rules M L) → (typed p d v).Meets Rs
  | .atom tok, d, h => by
    obtain ⟨h1, h2⟩ := atomType_meets A (show IsAtom _ _ tok from h)
    simp only [typed]
    exact wrap_meets A h1 h2 trivial
  | .arr w is, d, h => by
    simp only [Val.Meets] at h
    simp only [typed]
    exact wrap_meets A (by decide) ⟨spaces_closeItems (spaces_append (spaces_nl p) (spaces_append (spaces_nl p) (spaces_ind p _))) is,
      typedItems_meets is _ _ (spaces_append (spaces_nl p) (spaces_ind p _)) h.2⟩ trivial
  | .obj w ms, d, h => by
    simp only [Val.Meets] at h
    simp only [typed]
    exact wrap_meets A (by decide) ⟨spaces_closeMembers (spaces_append (spaces_nl p) (spaces_append (spaces_nl p) (spaces_ind p _))) ms,
      typedMembers_meets ms _ _ (spaces_append (spaces_nl p) (spaces_ind p _)) h.2⟩ (typedMembers_head A ms _ _ _ _ h.2)
theorem typedItems_meets : ∀ (is : Items) (d : Nat) (close : Bytes), Spaces close → is.Meets (rules M L) → (typedItems p d close is).Meets Rs
  | .nil, _, _, _, _ => by simp only [typedItems]; trivial
  | .cons b v a more, d, close, hc, h => by
    simp only [Items.Meets] at h
    simp only [typedItems]
    exact ⟨spaces_nl p, typed_meets v d h.2.1, spaces_closeItems hc more, typedItems_meets more d close hc h.2.2.2⟩
theorem typedMembers_meets : ∀ (ms : Members) (d : Nat) (close : Bytes), Spaces close → ms.Meets (rules M L) → (typedMembers p d close ms).Meets Rs
  | .nil, _, _, _, _ => by simp only [typedMembers]; trivial
  | .cons b k m m' v a more, d, close, hc, h => by
    simp only [Members.Meets] at h
    simp only [typedMembers]
    exact ⟨spaces_append (spaces_nl p) (spaces_ind p _), A.key k m h.2.1, spaces_nil, spaces_nil, typed_meets v d h.2.2.2.2.1,
      typed_head A v d _ h.2.2.2.2.1, spaces_closeMembers hc more, typedMembers_meets more d close hc h.2.2.2.2.2.2.2⟩
end

theorem typedDoc_meets (item : Bool) (v : Val) (h : v.Meets (rules M L)) : (typedDoc item p v).Meets Rs ∧ ∀ b, (typedDoc item p v).HeadMeets Rs b := by
  cases v with
  | atom tok =>
    obtain ⟨h1, h2⟩ := atomType_meets A (show IsAtom _ _ tok from h)
    exact ⟨⟨spaces_nil, spaces_ind p _, A.name _ h1, spaces_nil, spaces_nil, h2, trivial, spaces_nl p, trivial⟩,
      fun b => A.head _ _ _ _ (type_name h1).1 (by rintro rfl; simp [ind])⟩
  | arr w is => exact ⟨typed_meets A (.arr w is) 0 h, fun b => typed_head A (.arr w is) 0 b h⟩
  | obj w ms =>
    cases item
    · exact ⟨⟨spaces_closeMembers (spaces_append (spaces_nl p) (spaces_nl p)) ms, typedMembers_meets A ms _ _ (spaces_nl p) h.2⟩,
        fun b => typedMembers_head A ms _ _ _ b h.2⟩
    · exact ⟨wrap_meets A (by decide) ⟨spaces_closeMembers (spaces_append (spaces_nl p) (spaces_append (spaces_nl p) (spaces_ind p _))) ms,
        typedMembers_meets A ms _ _ (spaces_append (spaces_nl p) (spaces_ind p _)) h.2⟩ (typedMembers_head A ms _ _ _ _ h.2),
        fun b => wrap_head A (by decide) b⟩

end

theorem typedDocs_lines (item p : Bool) : ∀ (ds : Docs), typedDocs item p ds = lines (ds.map fun d => typedDoc item p d.2)
  | [] => rfl
  | (b, v) :: ds => by simp [typedDocs, lines, typedDocs_lines item p ds]

theorem meets_each {Rs : Rules} : ∀ (ds : Docs) (tail : Bytes), Docs.Meets Rs ds tail → ∀ d ∈ ds, d.2.Meets Rs
  | [], _, _, d, hd => by simp at hd
  | x :: ds, tail, h, d, hd => by
    rcases List.mem_cons.1 hd with rfl | hd
    · exact h.2.1
    · exact meets_each ds tail h.2.2.2.2 d hd

/-- Property C50. What `convert_normal_to_ddb` writes is a line (or lines) for each document, and each is well-formed JSON; it does not
depend on indentation, apart from space between tokens: what is written without indentation are the same documents without space.

The conditions `hk`, `ha` and `hc` are those of `C47_output_partial`; without them the statement is false, see `C47_comma` and
`C47_array_key`. -/
theorem C50_well_formed_partial (M : Mode) (L F : Nat) (reader : Reader) (rb cb : Bytes) (unbuffered item : Bool) (ds : Docs) (tail : Bytes)
    (hi : Inv M L F (.new reader rb)) (hcb : 141 ≤ cb.length) (hr : reader.pending = Docs.text ds tail) (hm : Docs.Meets (rules M L) ds tail)
    (hf : Docs.Fit ⟨cb.length - 136, 34, 34⟩ [nameTop] ds) (hk : ∀ d ∈ ds, d.2.Keys Usual) (ha : ∀ d ∈ ds, Atoms Short d.2) (hc : Calm ds)
    (turns : Nat) (ht : ds.length + reader.pending.length + 1 ≤ turns) :
    ∃ written : Bool → List Val, ∀ pretty, 
      (convertNormalToDdb turns F reader ⟨⟨[], []⟩, []⟩ rb cb pretty unbuffered item).1.d.w.out = lines (written pretty) ∧
      (written pretty).length = ds.length ∧ (∀ v ∈ written pretty, v.Meets jsonRules) ∧ (written pretty).map bare = written false := by
  refine ⟨fun pretty => ds.map fun d => typedDoc item pretty d.2, fun pretty => ⟨?_, by simp, ?_, ?_⟩⟩
  · rw [(C47_output_partial M L F reader rb cb [] pretty unbuffered item ds tail hi hcb hr hm hf hk ha hc turns ht).2, typedDocs_lines]
    rfl
  · intro v hv
    simp only [List.mem_map] at hv
    obtain ⟨d, hd, rfl⟩ := hv
    exact (typedDoc_meets (allows_json pretty M L) item d.2 (meets_each ds tail hm d hd)).1
  · simp only [List.map_map]
    refine List.map_congr_left fun d _ => ?_
    exact typedDoc_bare item pretty d.2

mutual
/-- The texts of numbers all have the property `P`. -/
def DVal.Numbers (P : Bytes → Prop) : DVal → Prop
  | .number _ body => P body
  | .numbers _ _ elems => ∀ e ∈ elems, P e.body
  | .list _ _ items => items.Numbers P
  | .map _ _ members => members.Numbers P
  | _ => True
@[inherit_doc DVal.Numbers]
def DItems.Numbers (P : Bytes → Prop) : DItems → Prop
  | .nil => True
  | .cons _ v _ more => v.Numbers P ∧ more.Numbers P
@[inherit_doc DVal.Numbers]
def DMembers.Numbers (P : Bytes → Prop) : DMembers → Prop
  | .nil => True
  | .cons _ _ _ _ v _ more => v.Numbers P ∧ more.Numbers P
end

/-- The body of a string. -/
theorem quoted_raw {num str : Bytes → Prop} {body : Bytes} (h : IsAtom num str (quoted body)) : RawBody body ∧ str body := by
  generalize e : quoted body = tok at h
  cases h with
  | null => simp [quoted] at e
  | true => simp [quoted] at e
  | false => simp [quoted] at e
  | number _ h _ =>
    subst e
    exact absurd h (not_number_string _)
  | string body' h h' =>
    simp only [quoted, List.cons.injEq, true_and] at e
    rw [List.append_cancel_right e]
    exact ⟨h, h'⟩

/-- Rules that hold for the plain form of documents with the numbers `P`, `p` says whether it is indented. -/
structure Takes (P : Bytes → Prop) (p : Bool) (M : Mode) (L : Nat) (Rs : Rules) : Prop where
  string : ∀ body, RawBody body → M.str body → Rs.atom (quoted body)
  number : ∀ tok, P tok → Rs.atom tok
  true : Rs.atom [116, 114, 117, 101]
  false : Rs.atom [102, 97, 108, 115, 101]
  null : Rs.atom [110, 117, 108, 108]
  key : ∀ k m, (rules M L).key k m → Rs.key k []
  head : ∀ a b c d, RawBody c → (p = Bool.true → b ≠ []) → Rs.head a b c d

theorem takes_json (p : Bool) (M : Mode) (L : Nat) : Takes Number p M L jsonRules :=
  ⟨fun body h _ => .string body h trivial, fun tok h => .number tok h trivial, .true, .false, .null, fun _ _ h => ⟨h.1, trivial⟩, fun _ _ _ _ _ _ => trivial⟩

/-- The rules of a mode for the plain form. -/
theorem takes_mode (p : Bool) (M M' : Mode) (L L' n : Nat) (h8 : n + 1 ≤ L') (h : L ≤ L') (hs : ∀ body, RawBody body → M.str body → M'.str body)
    (hh : ∀ a b c d, RawBody c → (p = true → b ≠ []) → M'.head a b c d) : Takes (fun t => Number t ∧ t.length ≤ n) p M L (rules M' L') :=
  ⟨fun body h h' => .string body h (hs body h h'), fun tok h => .number tok h.1 (by have := h.2; show tok.length + 1 ≤ L'; omega), .true, .false, .null,
   fun k m hk => ⟨hk.1, by have : k.length + m.length + 4 ≤ L := hk.2; show k.length + 0 + 4 ≤ L'; omega⟩, hh⟩

/-- The plain form is read by a reader that delivers all of it at once, into a buffer that is large enough. -/
theorem takes_whole (p : Bool) (M : Mode) (L L' n : Nat) (h8 : n + 1 ≤ L') (h : L ≤ L') : Takes (fun t => Number t ∧ t.length ≤ n) p M L (rules wholeMode L') :=
  takes_mode p M _ L L' n h8 h (fun _ _ _ => trivial) fun _ _ _ _ _ _ => trivial

/-- ASCII text is read in all chunks that do not end within the first key of an object that starts them, into a buffer that is large
enough. -/
theorem takes_chunk (p : Bool) (M : Mode) (L L' n len : Nat) (h8 : n + 1 ≤ L') (h : L ≤ L') :
    Takes (fun t => Number t ∧ t.length ≤ n) p M L (rules (chunkMode true true len) L') :=
  takes_mode p M _ L L' n h8 h (fun _ _ _ => .inl rfl) fun _ _ _ _ h _ _ => ⟨h, .inl rfl⟩

/-- Indented ASCII text is read in all chunks, into a buffer that has room for the longest key and the longest number. -/
theorem takes_stream (M : Mode) (one : Bool) (L L' n len : Nat) (h8 : n + 1 ≤ L') (h : L ≤ L') :
    Takes (fun t => Number t ∧ t.length ≤ n) true M L (rules (streamMode true one len) L') :=
  takes_mode true M _ L L' n h8 h (fun _ _ _ => .inl rfl) fun _ _ _ _ _ h h0 => absurd h0 (h rfl)

section
variable {M : Mode} {L : Nat} {Rs : Rules} {P : Bytes → Prop} {p : Bool}

theorem elemsPlain_meets {text : Bytes → Bytes} : ∀ (es : List Elem) (b : Bytes), (∀ e ∈ es, Rs.atom (text e.body)) → Spaces b →
    (elemsPlain p text b es).Meets Rs
  | [], _, _, _ => trivial
  | e :: es, b, h, hb => ⟨hb, h e (by simp), spaces_nil, elemsPlain_meets es (nl p) (fun x hx => h x (by simp [hx])) (spaces_nl p)⟩

theorem elemsJson_meets : ∀ (es : List Elem), (elemsJson es).Meets (rules M L) → ∀ e ∈ es, RawBody e.body ∧ M.str e.body
  | [], _, e, he => by simp at he
  | x :: es, h, e, he => by
    rcases List.mem_cons.1 he with rfl | he
    · exact quoted_raw (show IsAtom _ _ _ from h.2.1)
    · exact elemsJson_meets es h.2.2.2 e he

theorem spaces_close {close : Bytes} (h : Spaces close) (ms : DMembers) : Spaces (ms.close close) := by
  cases ms
  · exact h
  · exact spaces_nil

/-- What is behind the type. -/
theorem wrap_inner {sp : Sp} {name : Bytes} {v : Val} {Rs : Rules} (h : (sp.wrap name v).Meets Rs) : v.Meets Rs := h.2.2.2.2.2.1

variable (A : Takes P p M L Rs)
include A

theorem membersPlain_head (ms : DMembers) (d : Nat) (c close b : Bytes) (h : ms.json.Meets (rules M L)) :
    (Val.obj (ms.close c) (ms.plain p d close)).HeadMeets Rs b := by
  cases ms with
  | nil => simp only [DMembers.plain]; trivial
  | cons b' k m m' v a more =>
    simp only [DMembers.json, Members.Meets] at h
    simp only [DMembers.plain]
    exact A.head _ _ _ _ h.2.1.1 (by rintro rfl; simp [nl])

theorem plain_head (V : DVal) (d : Nat) (b : Bytes) (h : V.json.Meets (rules M L)) : (V.plain p d).HeadMeets Rs b := by
  cases V with
  | map sp w ms =>
    simp only [DVal.json] at h
    have h := wrap_inner h
    simp only [Val.Meets] at h
    simp only [DVal.plain]
    exact membersPlain_head A ms _ _ _ b h.2
  | _ => simp only [DVal.plain]; trivial

mutual
theorem plain_meets : ∀ (V : DVal) (d : Nat), V.json.Meets (rules M L) → V.Numbers P → (V.plain p d).Meets Rs
  | .string sp _ body, d, h, _ => by
    simp only [DVal.json] at h
    have h := quoted_raw (show IsAtom _ _ _ from wrap_inner h)
    exact A.string body h.1 h.2
  | .number sp body, d, h, hn => A.number body hn
  | .bool sp x, d, h, _ => by
    cases x
    · exact A.false
    · exact A.true
  | .null sp, d, h, _ => A.null
  | .strings sp _ w es, d, h, _ => by
    simp only [DVal.json] at h
    have h := wrap_inner h
    simp only [Val.Meets] at h
    simp only [DVal.plain]
    exact ⟨spaces_nil, elemsPlain_meets es [] (fun e he => A.string _ (elemsJson_meets es h.2 e he).1 (elemsJson_meets es h.2 e he).2) spaces_nil⟩
  | .numbers sp w es, d, h, hn => by
    simp only [DVal.plain]
    exact ⟨spaces_nil, elemsPlain_meets es [] (fun e he => A.number _ (hn e he)) spaces_nil⟩
  | .list sp w is, d, h, hn => by
    simp only [DVal.json] at h
    have h := wrap_inner h
    simp only [Val.Meets] at h
    simp only [DVal.plain]
    simp only [DVal.Numbers] at hn
    exact ⟨spaces_nil, itemsPlain_meets is d [] h.2 hn spaces_nil⟩
  | .map sp w ms, d, h, hn => by
    simp only [DVal.json] at h
    have h := wrap_inner h
    simp only [Val.Meets] at h
    simp only [DVal.plain]
    simp only [DVal.Numbers] at hn
    exact ⟨spaces_close (spaces_append (spaces_nl p) (spaces_append (spaces_nl p) (spaces_ind p _))) ms,
      membersPlain_meets ms (d + 1) _ h.2 hn (spaces_append (spaces_nl p) (spaces_ind p _))⟩
theorem itemsPlain_meets : ∀ (is : DItems) (d : Nat) (b : Bytes), is.json.Meets (rules M L) → is.Numbers P → Spaces b → (is.plain p d b).Meets Rs
  | .nil, _, _, _, _, _ => by simp only [DItems.plain]; trivial
  | .cons _ v _ more, d, b, h, hn, hb => by
    simp only [DItems.json, Items.Meets] at h
    simp only [DItems.Numbers] at hn
    simp only [DItems.plain]
    exact ⟨hb, plain_meets v d h.2.1 hn.1, spaces_nil, itemsPlain_meets more d (nl p) h.2.2.2 hn.2 (spaces_nl p)⟩
theorem membersPlain_meets : ∀ (ms : DMembers) (d : Nat) (close : Bytes), ms.json.Meets (rules M L) → ms.Numbers P → Spaces close →
    (ms.plain p d close).Meets Rs
  | .nil, _, _, _, _, _ => by simp only [DMembers.plain]; trivial
  | .cons _ k _ _ v _ more, d, close, h, hn, hc => by
    simp only [DMembers.json, Members.Meets] at h
    simp only [DMembers.Numbers] at hn
    simp only [DMembers.plain]
    exact ⟨spaces_append (spaces_nl p) (spaces_ind p _), A.key k _ h.2.1, spaces_nil, spaces_nil, plain_meets v d h.2.2.2.2.1 hn.1,
      plain_head A v d _ h.2.2.2.2.1, spaces_close hc more, membersPlain_meets more d close h.2.2.2.2.2.2.2 hn.2 hc⟩
end

omit A in
/-- The members of a document. -/
theorem docMembers_meets (d : DDoc) (h : d.json.Meets (rules M L)) : d.members.json.Meets (rules M L) := by
  cases d with
  | bare w ms => exact h.2
  | item sp w ms => exact (wrap_inner h).2

omit A in
theorem docPlain_eq (d : DDoc) : d.plain p = .obj (d.members.close (nl p ++ nl p)) (d.members.plain p 1 (nl p)) := by
  cases d <;> rfl

theorem docPlain_meets (d : DDoc) (h : d.json.Meets (rules M L)) (hn : d.members.Numbers P) : (d.plain p).Meets Rs ∧ ∀ b, (d.plain p).HeadMeets Rs b := by
  have hm := docMembers_meets d h
  rw [docPlain_eq]
  exact ⟨⟨spaces_close (spaces_append (spaces_nl p) (spaces_nl p)) _, membersPlain_meets A d.members 1 (nl p) hm hn (spaces_nl p)⟩,
    fun b => membersPlain_head A _ _ _ _ b hm⟩

end

theorem plain_lines (p : Bool) : ∀ (ds : DDocs), DDocs.plain p ds = lines (ds.map fun d => d.2.plain p)
  | [] => rfl
  | (b, d) :: ds => by simp [DDocs.plain, lines, plain_lines p ds]

/-- Property C53. What `convert_ddb_to_normal` writes is a line (or lines) for each item, and each is well-formed JSON, if the texts of
the numbers are numbers; it does not depend on indentation, apart from space between tokens.

The full statement is without the conditions `hn`, `ho` (those of `C49_output_partial`) and `hnum`. It is false: `C53_not_a_number`,
`C49_set_in_list`, `C49_array_field`. -/
theorem C53_well_formed_partial (M : Mode) (L F : Nat) (reader : Reader) (rb cb : Bytes) (unbuffered asWrapper : Bool) (ds : DDocs) (tail : Bytes)
    (hi : Inv M L F (.new reader rb)) (hcb : 277 ≤ cb.length) (hr : reader.pending = Docs.text ds.json tail) (hm : Docs.Meets (rules M L) ds.json tail)
    (hf : Docs.Fit ⟨cb.length - 272, 68, 68⟩ [nameTop] ds.json) (hn : ∀ d ∈ ds, d.2.members.Names (· ≠ nameArray)) (ho : ∀ d ∈ ds, d.2.members.Orderly)
    (hw : ∀ d ∈ ds, d.2.Reads asWrapper) (hnum : ∀ d ∈ ds, d.2.members.Numbers Number) (turns : Nat) (ht : ds.length + reader.pending.length + 1 ≤ turns) :
    ∃ written : Bool → List Val, ∀ pretty,
      (convertDdbToNormal turns F reader ⟨⟨[], []⟩, []⟩ rb cb pretty unbuffered asWrapper).1.d.w.out = lines (written pretty) ∧
      (written pretty).length = ds.length ∧ (∀ v ∈ written pretty, v.Meets jsonRules) ∧ (written pretty).map bare = written false := by
  refine ⟨fun pretty => ds.map fun d => d.2.plain pretty, fun pretty => ⟨?_, by simp, ?_, ?_⟩⟩
  · rw [(C49_output_partial M L F reader rb cb [] pretty unbuffered asWrapper ds tail hi hcb hr hm hf hn ho hw turns ht).2, plain_lines]
    rfl
  · intro v hv
    simp only [List.mem_map] at hv
    obtain ⟨d, hd, rfl⟩ := hv
    exact (docPlain_meets (takes_json pretty M L) d.2 (meets_each _ tail hm (d.1, d.2.json) (List.mem_map.2 ⟨d, hd, rfl⟩)) (hnum d hd)).1
  · simp only [List.map_map]
    exact List.map_congr_left fun d _ => docPlain_bare pretty d.2

/-! ## A larger context stack -/

/-- More room. -/
structure Wider (R R' : Room) : Prop where
  cap : R.cap ≤ R'.cap
  max : R.max ≤ R'.max
  slots : R.slots ≤ R'.slots

theorem fits_wider {R R' : Room} (h : Wider R R') {path : List Bytes} {name : Bytes} (hf : R.Fits path name) : R'.Fits path name := by
  obtain ⟨h1, h2, h3, h4, h5⟩ := hf
  obtain ⟨k1, k2, k3⟩ := h
  exact ⟨by omega, by omega, h3, h4, by omega⟩

mutual
theorem fit_wider {R R' : Room} (h : Wider R R') : ∀ (v : Val) (path : List Bytes), v.Fit R path → v.Fit R' path
  | .atom _, _, _ => trivial
  | .arr _ is, path, hf => by
    simp only [Val.Fit] at hf ⊢
    exact ⟨fits_wider h hf.1, fitItems_wider h is _ hf.2⟩
  | .obj _ ms, path, hf => by
    simp only [Val.Fit] at hf ⊢
    exact fitMembers_wider h ms _ hf
theorem fitItems_wider {R R' : Room} (h : Wider R R') : ∀ (is : Items) (path : List Bytes), is.Fit R path → is.Fit R' path
  | .nil, _, _ => by simp only [Items.Fit]
  | .cons _ v _ more, path, hf => by
    simp only [Items.Fit] at hf ⊢
    exact ⟨fit_wider h v path hf.1, fitItems_wider h more path hf.2⟩
theorem fitMembers_wider {R R' : Room} (h : Wider R R') : ∀ (ms : Members) (path : List Bytes), ms.Fit R path → ms.Fit R' path
  | .nil, _, _ => by simp only [Members.Fit]
  | .cons _ k _ _ v _ more, path, hf => by
    simp only [Members.Fit] at hf ⊢
    exact ⟨fits_wider h hf.1, fit_wider h v _ hf.2.1, fitMembers_wider h more path hf.2.2⟩
end

theorem fitDocs_wider {R R' : Room} (h : Wider R R') (path : List Bytes) : ∀ (ds : Docs), Docs.Fit R path ds → Docs.Fit R' path ds
  | [], _ => trivial
  | (_, v) :: ds, hf => ⟨fit_wider h v path hf.1, fitDocs_wider h path ds hf.2⟩

/-! ## The context stack of the second converter -/

/-- The two paths of a value: `path` in the plain document, `path'` in the typed one. -/
structure Deep (cap : Nat) (path path' : List Bytes) : Prop where
  depth : path.length ≤ 34
  used : usedNames path ≤ cap
  depth' : path'.length ≤ 2 * path.length
  used' : usedNames path' ≤ usedNames path + 3 + 2 * path.length

/-- The same in front of a type. -/
structure Deep1 (cap : Nat) (path path' : List Bytes) : Prop where
  depth : path.length ≤ 34
  used : usedNames path ≤ cap
  depth' : path'.length + 1 ≤ 2 * path.length
  used' : usedNames path' ≤ usedNames path + 1 + 2 * path.length

theorem Deep1.typed {cap : Nat} {path path' : List Bytes} (h : Deep1 cap path path') {name : Bytes} (hn : name.length = 1) : Deep cap path (name :: path') := by
  have h1 := h.depth; have h2 := h.used; have h3 := h.depth'; have h4 := h.used'
  refine ⟨h1, h2, ?_, ?_⟩ <;> simp only [usedNames, List.length_cons] <;> omega

theorem fits_mk {cap : Nat} {path : List Bytes} {name : Bytes} (h1 : path.length < 68) (h2 : usedNames path + (1 + name.length) ≤ cap) (h3 : usedNames path ≤ 65535)
    (h4 : 1 + name.length ≤ 65535) : Room.Fits ⟨cap, 68, 68⟩ path name := ⟨h1, h2, h3, h4, h1⟩

section
variable {cap cap' : Nat} (hcap : cap + 80 ≤ cap') (hsmall : cap + 80 ≤ 65535)
include hcap hsmall

theorem Deep1.fits {path path' : List Bytes} (h : Deep1 cap path path') {name : Bytes} (hn : name.length ≤ 4) : Room.Fits ⟨cap', 68, 68⟩ path' name := by
  have h1 := h.depth; have h2 := h.used; have h3 := h.depth'; have h4 := h.used'
  exact fits_mk (by omega) (by omega) (by omega) (by omega)

theorem Deep.key {path path' : List Bytes} (h : Deep cap path path') {k : Bytes} (hk : Room.Fits ⟨cap, 34, 34⟩ path k) :
    Room.Fits ⟨cap', 68, 68⟩ path' k ∧ Deep1 cap (k :: path) (k :: path') := by
  have h1 := h.depth; have h2 := h.used; have h3 := h.depth'; have h4 := h.used'
  obtain ⟨k1, k2, k3, k4, k5⟩ := hk
  simp only [] at k1 k2
  refine ⟨fits_mk (by omega) (by omega) (by omega) k4, ⟨?_, ?_, ?_, ?_⟩⟩ <;> simp only [usedNames, List.length_cons] <;> omega

theorem wrap_fit {p : Bool} {d : Nat} {name : Bytes} {v : Val} {path path' : List Bytes} (h : Deep1 cap path path') (hn : name.length ≤ 4)
    (hv : v.Fit ⟨cap', 68, 68⟩ (name :: path')) : (wrap p d name v).Fit ⟨cap', 68, 68⟩ path' :=
  ⟨h.fits hcap hsmall hn, hv, trivial⟩

omit hcap hsmall in
theorem atomType_length {M : Mode} {num : Bytes → Prop} {tok : Bytes} (h : IsAtom num M.str tok) : (atomType tok).1.length ≤ 4 :=
  (type_name (atomType_meets (allows_json false M 0) h).1).2

mutual
theorem typed_fit {M : Mode} {L : Nat} (p : Bool) : ∀ (v : Val) (d : Nat) (path path' : List Bytes), Deep1 cap path path' → v.Meets (rules M L) →
    v.Fit ⟨cap, 34, 34⟩ path → (typed p d v).Fit ⟨cap', 68, 68⟩ path'
  | .atom tok, d, path, path', h, hm, hf => by
    simp only [typed]
    exact wrap_fit hcap hsmall h (atomType_length (show IsAtom _ _ tok from hm)) trivial
  | .arr w is, d, path, path', h, hm, hf => by
    simp only [Val.Fit] at hf
    simp only [Val.Meets] at hm
    simp only [typed]
    obtain ⟨h1, h2⟩ := (h.typed (name := [76]) rfl).key hcap hsmall hf.1
    exact wrap_fit hcap hsmall h (by decide) ⟨h1, typedItems_fit p is (d + 1) _ _ _ h2 hm.2 hf.2⟩
  | .obj w ms, d, path, path', h, hm, hf => by
    simp only [Val.Fit] at hf
    simp only [Val.Meets] at hm
    simp only [typed]
    exact wrap_fit hcap hsmall h (by decide) (typedMembers_fit p ms (d + 2) _ _ _ (h.typed (name := [77]) rfl) hm.2 hf)
theorem typedItems_fit {M : Mode} {L : Nat} (p : Bool) : ∀ (is : Items) (d : Nat) (close : Bytes) (path path' : List Bytes), Deep1 cap path path' →
    is.Meets (rules M L) → is.Fit ⟨cap, 34, 34⟩ path → (typedItems p d close is).Fit ⟨cap', 68, 68⟩ path'
  | .nil, _, _, _, _, _, _, _ => by simp only [typedItems]; trivial
  | .cons b v a more, d, close, path, path', h, hm, hf => by
    simp only [Items.Fit] at hf
    simp only [Items.Meets] at hm
    simp only [typedItems]
    exact ⟨typed_fit p v d path path' h hm.2.1 hf.1, typedItems_fit p more d close path path' h hm.2.2.2 hf.2⟩
theorem typedMembers_fit {M : Mode} {L : Nat} (p : Bool) : ∀ (ms : Members) (d : Nat) (close : Bytes) (path path' : List Bytes), Deep cap path path' →
    ms.Meets (rules M L) → ms.Fit ⟨cap, 34, 34⟩ path → (typedMembers p d close ms).Fit ⟨cap', 68, 68⟩ path'
  | .nil, _, _, _, _, _, _, _ => by simp only [typedMembers]; trivial
  | .cons b k m m' v a more, d, close, path, path', h, hm, hf => by
    simp only [Members.Fit] at hf
    simp only [Members.Meets] at hm
    simp only [typedMembers]
    obtain ⟨h1, h2⟩ := h.key hcap hsmall hf.1
    exact ⟨h1, typed_fit p v d _ _ h2 hm.2.2.2.2.1 hf.2.1, typedMembers_fit p more d close path path' h hm.2.2.2.2.2.2.2 hf.2.2⟩
end

theorem typedDoc_fit {M : Mode} {L : Nat} (item p : Bool) (w : Bytes) (ms : Members) (h5 : 5 ≤ cap) (hm : ms.Meets (rules M L))
    (hf : ms.Fit ⟨cap, 34, 34⟩ [nameTop]) : (typedDoc item p (.obj w ms)).Fit ⟨cap', 68, 68⟩ [nameTop] := by
  cases item
  · exact typedMembers_fit hcap hsmall p ms _ _ [nameTop] [nameTop] ⟨by decide, by simp [usedNames, nameTop]; omega, by decide, by decide⟩ hm hf
  · refine ⟨fits_mk (by decide) ?_ (by decide) (by decide), ?_, trivial⟩
    · simp [usedNames, nameTop]; omega
    · exact typedMembers_fit hcap hsmall p ms _ _ [nameTop] [[73, 116, 101, 109], nameTop]
        ⟨by decide, by simp [usedNames, nameTop]; omega, by decide, by decide⟩ hm hf

end

/-! ## The other conditions -/

mutual
theorem toD_names (p : Bool) : ∀ (v : Val) (d : Nat), v.Keys Usual → (toD p d v).Names (· ≠ nameArray)
  | .atom tok, d, _ => by simp only [toD]; exact toAtom_names _ _
  | .arr w is, d, h => by
    simp only [Val.Keys] at h
    simp only [toD, DVal.Names]
    exact toDItems_names p is _ _ h
  | .obj w ms, d, h => by
    simp only [Val.Keys] at h
    simp only [toD, DVal.Names]
    exact toDMembers_names p ms _ _ h
theorem toDItems_names (p : Bool) : ∀ (is : Items) (d : Nat) (close : Bytes), is.Keys Usual → (toDItems p d close is).Names (· ≠ nameArray)
  | .nil, _, _, _ => by simp only [toDItems]; trivial
  | .cons b v a more, d, close, h => by
    simp only [Items.Keys] at h
    simp only [toDItems]
    exact ⟨toD_names p v d h.1, toDItems_names p more d close h.2⟩
theorem toDMembers_names (p : Bool) : ∀ (ms : Members) (d : Nat) (close : Bytes), ms.Keys Usual → (toDMembers p d close ms).Names (· ≠ nameArray)
  | .nil, _, _, _ => by simp only [toDMembers]; trivial
  | .cons b k m m' v a more, d, close, h => by
    simp only [Members.Keys] at h
    simp only [toDMembers]
    exact ⟨((usual_iff k).1 h.1).2, toD_names p v d h.2.1, toDMembers_names p more d close h.2.2⟩
end

mutual
theorem toD_orderly (p : Bool) : ∀ (v : Val) (d : Nat), (toD p d v).Orderly
  | .atom tok, d => by simp only [toD]; exact (toAtom_orderly _).1
  | .arr w is, d => by
    simp only [toD, DVal.Orderly]
    exact toDItems_orderly p is _ _ _
  | .obj w ms, d => by
    simp only [toD, DVal.Orderly]
    exact toDMembers_orderly p ms _ _
theorem toDItems_orderly (p : Bool) : ∀ (is : Items) (d : Nat) (close : Bytes) (later : Bool), (toDItems p d close is).Orderly later
  | .nil, _, _, _ => by simp only [toDItems]; trivial
  | .cons b v a more, d, close, later => by
    simp only [toDItems]
    exact ⟨fun _ => toD_isSet p d v, toD_orderly p v d, toDItems_orderly p more d close true⟩
theorem toDMembers_orderly (p : Bool) : ∀ (ms : Members) (d : Nat) (close : Bytes), (toDMembers p d close ms).Orderly
  | .nil, _, _ => by simp only [toDMembers]; trivial
  | .cons b k m m' v a more, d, close => by
    simp only [toDMembers]
    exact ⟨toD_orderly p v d, toDMembers_orderly p more d close⟩
end

/-! ## The round trip -/

/-- The stream of objects that the first converter writes, as DynamoDB JSON: the first document is at the start, the others behind a
newline. -/
def toDocs (item p : Bool) : Bytes → Docs → DDocs
  | _, [] => []
  | b, (_, .obj _ ms) :: ds => (b, toDoc item p ms) :: toDocs item p [10] ds
  | b, (_, _) :: ds => toDocs item p b ds

/-- All documents are objects. -/
def Objects (ds : Docs) : Prop := ∀ d ∈ ds, ∃ w ms, d.2 = .obj w ms

/-- Induction over streams of objects. -/
theorem objects_cons {d : Bytes × Val} {ds : Docs} (h : Objects (d :: ds)) : (∃ w ms, d = (d.1, .obj w ms)) ∧ Objects ds := by
  obtain ⟨w, ms, e⟩ := h d (by simp)
  exact ⟨⟨w, ms, by rw [← e]⟩, fun x hx => h x (by simp [hx])⟩

theorem toDoc_json {M : Mode} {L : Nat} (item p : Bool) (w : Bytes) (ms : Members) (h : ms.Meets (rules M L)) :
    (toDoc item p ms).json = typedDoc item p (.obj w ms) := by
  cases item
  · simp only [toDoc, typedDoc, Bool.false_eq_true, if_false, DDoc.json, toDMembers_json p _ _ ms h]
  · simp only [toDoc, typedDoc, if_true, DDoc.json, toDMembers_json p _ _ ms h]
    rfl

theorem toDoc_plain {M : Mode} {L : Nat} (item p : Bool) (w : Bytes) (ms : Members) (h : ms.Meets (rules M L)) :
    (toDoc item p ms).plain false = bare (.obj w ms) := by
  cases item <;>
  simp only [toDoc, bare, Bool.false_eq_true, if_false, if_true, DDoc.plain, nl, List.append_nil, ToNormal.close_empty, toDMembers_plain p _ _ _ ms h]

theorem toDocs_text {M : Mode} {L : Nat} (item p : Bool) : ∀ (ds : Docs) (tail : Bytes), Objects ds → Docs.Meets (rules M L) ds tail →
    Docs.text (toDocs item p [10] ds).json [10] = 10 :: typedDocs item p ds
  | [], _, _, _ => rfl
  | d :: ds, tail, ho, hm => by
    obtain ⟨⟨w, ms, e⟩, ho⟩ := objects_cons ho
    rw [e] at hm ⊢
    have h1 := toDocs_text item p ds tail ho hm.2.2.2.2
    have h2 := toDoc_json item p w ms (M := M) (L := L) hm.2.1.2
    simp only [toDocs, DDocs.json, List.map_cons, Docs.text, h2, typedDocs]
    unfold DDocs.json at h1
    rw [h1]
    rfl

theorem toDocs_meets {M : Mode} {L : Nat} {Rs : Rules} {p : Bool} (A : Allows p M L Rs) (item : Bool) : ∀ (ds : Docs) (tail b tail' : Bytes), Objects ds →
    Docs.Meets (rules M L) ds tail → Spaces b → Spaces tail' → Docs.Meets Rs (toDocs item p b ds).json tail'
  | [], _, _, _, _, _, _, ht => ht
  | d :: ds, tail, b, tail', ho, hm, hb, ht => by
    obtain ⟨⟨w, ms, e⟩, ho⟩ := objects_cons ho
    rw [e] at hm ⊢
    have h1 := toDocs_meets A item ds tail [10] tail' ho hm.2.2.2.2 (spaces_nl true) ht
    have h2 := toDoc_json item p w ms (M := M) (L := L) hm.2.1.2
    refine ⟨hb, ?_, ?_, ?_, h1⟩
    · rw [h2]
      exact (typedDoc_meets A item _ hm.2.1).1
    · rw [h2]
      exact (typedDoc_meets A item _ hm.2.1).2 _
    · rw [h2]
      cases item <;> trivial

theorem toDocs_fit {M : Mode} {L cap cap' : Nat} (hcap : cap + 80 ≤ cap') (hsmall : cap + 80 ≤ 65535) (h5 : 5 ≤ cap) (item p : Bool) :
    ∀ (ds : Docs) (tail b : Bytes), Objects ds → Docs.Meets (rules M L) ds tail → Docs.Fit ⟨cap, 34, 34⟩ [nameTop] ds →
    Docs.Fit ⟨cap', 68, 68⟩ [nameTop] (toDocs item p b ds).json
  | [], _, _, _, _, _ => trivial
  | d :: ds, tail, b, ho, hm, hf => by
    obtain ⟨⟨w, ms, e⟩, ho⟩ := objects_cons ho
    rw [e] at hm hf ⊢
    refine ⟨?_, toDocs_fit hcap hsmall h5 item p ds tail [10] ho hm.2.2.2.2 hf.2⟩
    rw [toDoc_json item p w ms (M := M) (L := L) hm.2.1.2]
    exact typedDoc_fit hcap hsmall item p w ms h5 hm.2.1.2 hf.1

/-- The documents of the stream. -/
theorem toDocs_mem (item p : Bool) : ∀ (ds : Docs) (b : Bytes) (x : Bytes × DDoc), x ∈ toDocs item p b ds →
    ∃ d ∈ ds, ∃ w ms, d.2 = .obj w ms ∧ x.2 = toDoc item p ms
  | [], _, _, h => by simp [toDocs] at h
  | (b', .obj w ms) :: ds, b, x, h => by
    simp only [toDocs, List.mem_cons] at h
    rcases h with rfl | h
    · exact ⟨(b', .obj w ms), by simp, w, ms, rfl, rfl⟩
    · obtain ⟨d, hd, r⟩ := toDocs_mem item p ds [10] x h
      exact ⟨d, by simp [hd], r⟩
  | (b', .atom tok) :: ds, b, x, h => by
    obtain ⟨d, hd, r⟩ := toDocs_mem item p ds b x h
    exact ⟨d, by simp [hd], r⟩
  | (b', .arr w is) :: ds, b, x, h => by
    obtain ⟨d, hd, r⟩ := toDocs_mem item p ds b x h
    exact ⟨d, by simp [hd], r⟩

theorem toDocs_plain {M : Mode} {L : Nat} (item p : Bool) : ∀ (ds : Docs) (tail b : Bytes), Objects ds → Docs.Meets (rules M L) ds tail →
    (toDocs item p b ds).map (fun d => d.2.plain false) = ds.map fun d => bare d.2
  | [], _, _, _, _ => rfl
  | d :: ds, tail, b, ho, hm => by
    obtain ⟨⟨w, ms, e⟩, ho⟩ := objects_cons ho
    rw [e] at hm ⊢
    simp only [toDocs, List.map_cons, toDocs_plain item p ds tail [10] ho hm.2.2.2.2, toDoc_plain item p w ms (M := M) (L := L) hm.2.1.2]

theorem toDocs_length (item p : Bool) : ∀ (ds : Docs) (b : Bytes), Objects ds → (toDocs item p b ds).length = ds.length
  | [], _, _ => rfl
  | d :: ds, b, ho => by
    obtain ⟨⟨w, ms, e⟩, ho⟩ := objects_cons ho
    rw [e]
    simp only [toDocs, List.length_cons, toDocs_length item p ds [10] ho]

theorem objects_calm {ds : Docs} (h : Objects ds) : Calm ds := by
  intro l b v b' tok r e
  obtain ⟨w, ms, e'⟩ := h (b', .atom tok) (by rw [e]; simp)
  cases e'

/-- The names of the members of a document that is an object. -/
def _root_.Verif.Scan.Val.Fields (P : Bytes → Prop) : Val → Prop
  | .obj _ members => fields members
  | _ => True
where
  fields : Members → Prop
    | .nil => True
    | .cons _ k _ _ _ _ more => P k ∧ fields more

theorem toDMembers_keys (p : Bool) : ∀ (ms : Members) (d : Nat) (close : Bytes), Val.Fields.fields (· ≠ [73, 116, 101, 109]) ms →
    [73, 116, 101, 109] ∉ (toDMembers p d close ms).keys
  | .nil, _, _, _ => by simp [toDMembers, DMembers.keys]
  | .cons b k m m' v a more, d, close, h => by
    simp only [toDMembers, DMembers.keys, List.mem_cons, not_or]
    exact ⟨fun e => h.1 e.symm, toDMembers_keys p more d close h.2⟩

/-- Property C52. What `convert_normal_to_ddb` writes for a stream of objects, `convert_ddb_to_normal` turns back into the stream: it
writes the same documents without space between tokens, each followed by a newline; indented, it writes documents that differ from them
only by space. The names on a path take at most `cap` bytes; the context buffer of the second conversion needs some bytes more than that of
the first (the paths in typed documents are longer). The second conversion expects the wrapper `Item` if the first wrote it; if the first did
not, it may expect it nevertheless (as the command line tool does), if no document has a member with that name (`C52_item_key`). The text
between is read in any mode `M2` with `Allows`: all at once (`allows_whole`), in chunks that do not end within certain keys (`allows_chunk`,
ASCII), or, if it is indented, in any chunks, into a small buffer (`allows_stream`, ASCII).

The full statement is without the conditions `hk` and `ha` (those of `C47_output_partial`) and `hw'`. It is false: `C47_long_number`,
`C47_array_key`, `C52_item_key`. -/
theorem C52_round_trip_partial (M : Mode) (L F : Nat) (reader : Reader) (rb cb : Bytes) (pretty unbuffered item : Bool) (ds : Docs) (tail : Bytes)
    (cap : Nat) (hi : Inv M L F (.new reader rb)) (hcap : 5 ≤ cap) (hcap' : cap ≤ 65000) (hcb : cap + 136 ≤ cb.length)
    (hr : reader.pending = Docs.text ds tail) (hm : Docs.Meets (rules M L) ds tail) (hf : Docs.Fit ⟨cap, 34, 34⟩ [nameTop] ds) (hk : ∀ d ∈ ds, d.2.Keys Usual)
    (ha : ∀ d ∈ ds, Atoms Short d.2) (ho : Objects ds) (turns : Nat) (ht : ds.length + reader.pending.length + 1 ≤ turns)
    (M2 : Mode) (L2 F2 : Nat) (A : Allows pretty M L (rules M2 L2)) (reader2 : Reader) (rb2 cb2 : Bytes) (pretty2 unbuffered2 item2 : Bool)
    (hw : item = true → item2 = true) (hw' : item = false → item2 = true → ∀ d ∈ ds, d.2.Fields (· ≠ [73, 116, 101, 109]))
    (hi2 : Inv M2 L2 F2 (.new reader2 rb2)) (hcb2 : cap + 352 ≤ cb2.length)
    (hr2 : reader2.pending = (convertNormalToDdb turns F reader ⟨⟨[], []⟩, []⟩ rb cb pretty unbuffered item).1.d.w.out)
    (turns2 : Nat) (ht2 : ds.length + reader2.pending.length + 1 ≤ turns2) :
    (convertDdbToNormal turns2 F2 reader2 ⟨⟨[], []⟩, []⟩ rb2 cb2 pretty2 unbuffered2 item2).2 = .ok ∧
    ∃ ws : List Val, (convertDdbToNormal turns2 F2 reader2 ⟨⟨[], []⟩, []⟩ rb2 cb2 pretty2 unbuffered2 item2).1.d.w.out = lines ws ∧
      ws.map bare = ds.map (fun d => bare d.2) ∧ (pretty2 = false → ws = ds.map fun d => bare d.2) := by
  have hf1 : Docs.Fit ⟨cb.length - 136, 34, 34⟩ [nameTop] ds :=
    fitDocs_wider (R := ⟨cap, 34, 34⟩) ⟨by show cap ≤ cb.length - 136; omega, Nat.le_refl 34, Nat.le_refl 34⟩ _ _ hf
  rw [(C47_output_partial M L F reader rb cb [] pretty unbuffered item ds tail hi (by omega) hr hm hf1 hk ha (objects_calm ho) turns ht).2] at hr2
  have htext : ∃ tail2, Spaces tail2 ∧ reader2.pending = Docs.text (toDocs item pretty [] ds).json tail2 := by
    rw [hr2]
    cases ds with
    | nil => exact ⟨[], spaces_nil, rfl⟩
    | cons d ds =>
      refine ⟨[10], spaces_nl true, ?_⟩
      obtain ⟨⟨w, ms, e⟩, ho⟩ := objects_cons ho
      rw [e] at hm ⊢
      have h1 := toDocs_text item pretty ds tail ho hm.2.2.2.2
      have h2 := toDoc_json item pretty w ms (M := M) (L := L) hm.2.1.2
      simp only [toDocs, DDocs.json, List.map_cons, Docs.text, h2, typedDocs]
      unfold DDocs.json at h1
      rw [h1]
  obtain ⟨tail2, hs2, htext⟩ := htext
  have hmem : ∀ x ∈ toDocs item pretty [] ds, x.2.members.Names (· ≠ nameArray) ∧ x.2.members.Orderly ∧ x.2.Reads item2 := by
    intro x hx
    obtain ⟨d, hd, w, ms, e, e'⟩ := toDocs_mem item pretty ds [] x hx
    have hkey := hk d hd
    rw [e] at hkey
    rw [e']
    cases item
    · refine ⟨toDMembers_names pretty ms _ _ hkey, toDMembers_orderly pretty ms _ _, fun h => ?_⟩
      have := hw' rfl h d hd
      rw [e] at this
      exact toDMembers_keys pretty ms _ _ this
    · exact ⟨toDMembers_names pretty ms _ _ hkey, toDMembers_orderly pretty ms _ _, hw rfl⟩
  obtain ⟨h1, h2⟩ := C49_output_partial M2 L2 F2 reader2 rb2 cb2 [] pretty2 unbuffered2 item2 (toDocs item pretty [] ds) tail2 hi2 (by omega) htext
    (toDocs_meets A item ds tail [] tail2 ho hm spaces_nil hs2)
    (toDocs_fit (cap := cap) (by omega) (by omega) (by omega) item pretty ds tail [] ho hm hf)
    (fun x hx => (hmem x hx).1) (fun x hx => (hmem x hx).2.1) (fun x hx => (hmem x hx).2.2) turns2 (by rw [toDocs_length item pretty ds [] ho]; exact ht2)
  refine ⟨h1, (toDocs item pretty [] ds).map (fun d => d.2.plain pretty2), ?_, ?_, ?_⟩
  · rw [h2, plain_lines]
    rfl
  · rw [← toDocs_plain item pretty ds tail [] ho hm, List.map_map]
    exact List.map_congr_left fun d _ => docPlain_bare pretty2 d.2
  · rintro rfl
    exact toDocs_plain item pretty ds tail [] ho hm

/-! ## Examples -/

/-- A number that is none, `{"a":{"N":"x"}}`. -/
def exNaN : DDocs := [([], .bare [] (.cons [] [97] [] [] (.number .no [120]) [] .nil))]

/-- Negation of C53 without the condition on numbers: the output is not JSON. -/
theorem C53_not_a_number : Docs.Meets (rules wholeMode 20) exNaN.json [] ∧ (∀ d ∈ exNaN, d.2.members.Names (· ≠ nameArray)) ∧
    (∀ d ∈ exNaN, d.2.members.Orderly) ∧ (∀ d ∈ exNaN, d.2.Reads false) ∧
    (convertDdbToNormal 140 200 (whole (Docs.text exNaN.json [])) ⟨⟨[], []⟩, []⟩ (List.replicate 120 0) (List.replicate 400 0) false false false).2 = .ok ∧
    (convertDdbToNormal 140 200 (whole (Docs.text exNaN.json [])) ⟨⟨[], []⟩, []⟩ (List.replicate 120 0) (List.replicate 400 0)
      false false false).1.d.w.out = "{\"a\":x}\n".toUTF8.toList ∧
    ¬ Number "x".toUTF8.toList := by
  refine ⟨⟨spaces_nil, plainVal_ok _ (by decide +kernel), head_whole _ _ _, trivial, spaces_nil⟩, ?_, ?_, ?_, by decide +kernel, by decide +kernel, ?_⟩
  · intro d hd
    simp only [exNaN, List.mem_cons, List.not_mem_nil, or_false] at hd
    subst hd
    simp [DDoc.members, DMembers.Names, DVal.Names, nameArray]
  · intro d hd
    simp only [exNaN, List.mem_cons, List.not_mem_nil, or_false] at hd
    subst hd
    simp [DDoc.members, DMembers.Orderly, DVal.Orderly]
  · intro d hd
    simp only [exNaN, List.mem_cons, List.not_mem_nil, or_false] at hd
    subst hd
    exact fun h => absurd h (by decide)
  · intro h
    obtain ⟨c, r, e, hc⟩ := number_first h
    have : c = 120 := by
      have : "x".toUTF8.toList = [120] := by decide +kernel
      rw [this] at e
      injection e with e _
      exact e.symm
    subst this
    exact absurd hc (by decide)

/-- The numbers of `exItems`; the other hypotheses of `C53_well_formed_partial` are those of C49. -/
example : ∀ d ∈ exItems, d.2.members.Numbers Number := by
  intro d hd
  simp only [exItems, List.mem_cons, List.not_mem_nil, or_false] at hd
  rcases hd with rfl | rfl
  · simp [exDdb, DDoc.members, DMembers.Numbers, DVal.Numbers, DItems.Numbers, number_one]
  · simp [DDoc.members, DMembers.Numbers, DVal.Numbers]

/-- An object with the key `Item`: `{"Item":{}}`. -/
def exItemKey : Docs := [([], .obj [] (.cons [] [73, 116, 101, 109] [] [] (.obj [] .nil) [] .nil))]

/-- Negation of C52 without the condition on the name `Item`: written without the wrapper, `{"Item":{}}` becomes `{"Item":{"M":{}}}`. A second
conversion that expects the wrapper succeeds, and writes `{"M":}`, which is not JSON. All other hypotheses are met. -/
theorem C52_item_key : Docs.text exItemKey [] = "{\"Item\":{}}".toUTF8.toList ∧ Docs.Meets (rules wholeMode 20) exItemKey [] ∧
    Docs.Fit ⟨200, 34, 34⟩ [nameTop] exItemKey ∧ (∀ d ∈ exItemKey, d.2.Keys Usual) ∧ (∀ d ∈ exItemKey, Atoms Short d.2) ∧ Objects exItemKey ∧
    (convertNormalToDdb 40 200 (whole (Docs.text exItemKey [])) ⟨⟨[], []⟩, []⟩ (List.replicate 60 0) (List.replicate 400 0)
      false false false).1.d.w.out = "{\"Item\":{\"M\":{}}}\n".toUTF8.toList ∧
    (convertDdbToNormal 40 200 (whole "{\"Item\":{\"M\":{}}}\n".toUTF8.toList) ⟨⟨[], []⟩, []⟩ (List.replicate 60 0) (List.replicate 600 0)
      false false true).2 = .ok ∧
    (convertDdbToNormal 40 200 (whole "{\"Item\":{\"M\":{}}}\n".toUTF8.toList) ⟨⟨[], []⟩, []⟩ (List.replicate 60 0) (List.replicate 600 0)
      false false true).1.d.w.out = "{\"M\":}\n".toUTF8.toList := by
  refine ⟨by decide +kernel, ⟨spaces_nil, plainVal_ok _ (by decide +kernel), head_whole _ _ _, trivial, spaces_nil⟩, ?_, ?_, ?_, ?_,
    by decide +kernel, by decide +kernel, by decide +kernel⟩
  · simp only [exItemKey, Docs.Fit, Val.Fit, Members.Fit]
    decide
  all_goals
    intro d hd
    simp only [exItemKey, List.mem_cons, List.not_mem_nil, or_false] at hd
    subst hd
  · exact ⟨by rw [usual_iff]; decide, trivial, trivial⟩
  · exact ⟨trivial, trivial⟩
  · exact ⟨_, _, rfl⟩

/-- `{"a":[1],"b":null} {}` -/
def exTrip : Docs := [([], exSpec), ([32], .obj [] .nil)]

/-- The hypotheses of `C52_round_trip_partial` on this stream, and those of `C50_well_formed_partial` among them. -/
example : Inv wholeMode 20 200 (.new (whole (Docs.text exTrip [])) (List.replicate 40 0)) ∧ (whole (Docs.text exTrip [])).pending = Docs.text exTrip [] ∧
    Docs.text exTrip [] = "{\"a\":[1],\"b\":null} {}".toUTF8.toList ∧
    Docs.Meets (rules wholeMode 20) exTrip [] ∧ Docs.Fit ⟨200 - 136, 34, 34⟩ [nameTop] exTrip ∧ (∀ d ∈ exTrip, d.2.Keys Usual) ∧
    (∀ d ∈ exTrip, Atoms Short d.2) ∧ Objects exTrip ∧
    (∃ reader2, reader2.pending = (convertNormalToDdb 40 200 (whole (Docs.text exTrip [])) ⟨⟨[], []⟩, []⟩ (List.replicate 40 0) (List.replicate 200 0)
        false false true).1.d.w.out ∧ Inv wholeMode 20 200 (.new reader2 (List.replicate 120 0))) ∧
    exTrip.map (fun d => (bare d.2).text) = ["{\"a\":[1],\"b\":null}".toUTF8.toList, "{}".toUTF8.toList] := by
  have hs : ∀ tok : Bytes, tok.length ≤ 32 → Short tok := fun _ h _ => h
  refine ⟨whole_new _ _ 20 200 (by simp [whole, exTrip, exSpec, Docs.text, Val.text, Reader.OneChunk]) (by decide +kernel) (by decide) (by decide +kernel) (by decide +kernel),
    by decide +kernel, by decide +kernel,
    ⟨spaces_nil, plainVal_ok _ (by decide +kernel), head_whole _ _ _, trivial, spaces_one, plainVal_ok _ (by decide +kernel), head_whole _ _ _, trivial, spaces_nil⟩,
    ?_, ?_, ?_, ?_, ⟨whole "{\"Item\":{\"a\":{\"L\":[{\"N\":\"1\"}]},\"b\":{\"NULL\":true}}}\n{\"Item\":{}}\n".toUTF8.toList, by decide +kernel,
      whole_new _ _ 20 200 ?_ (by decide +kernel) (by decide) (by decide +kernel) (by decide +kernel)⟩, by decide +kernel⟩
  · simp only [exTrip, exSpec, Docs.Fit, Val.Fit, Items.Fit, Members.Fit]
    decide
  · intro d hd
    simp only [exTrip, List.mem_cons, List.not_mem_nil, or_false] at hd
    rcases hd with rfl | rfl
    · exact ⟨by rw [usual_iff]; decide, ⟨trivial, trivial⟩, by rw [usual_iff]; decide, trivial, trivial⟩
    · trivial
  · intro d hd
    simp only [exTrip, List.mem_cons, List.not_mem_nil, or_false] at hd
    rcases hd with rfl | rfl
    · exact ⟨⟨hs _ (by decide), trivial⟩, hs _ (by decide), trivial⟩
    · trivial
  · intro d hd
    simp only [exTrip, List.mem_cons, List.not_mem_nil, or_false] at hd
    rcases hd with rfl | rfl <;> exact ⟨_, _, rfl⟩
  · unfold whole
    generalize "{\"Item\":{\"a\":{\"L\":[{\"N\":\"1\"}]},\"b\":{\"NULL\":true}}}\n{\"Item\":{}}\n".toUTF8.toList = l
    cases l <;> simp [Reader.OneChunk]

/-- The indented text between the two conversions. -/
def exBetween : Bytes :=
  (convertNormalToDdb 40 200 (whole (Docs.text exTrip [])) ⟨⟨[], []⟩, []⟩ (List.replicate 40 0) (List.replicate 200 0) true false true).1.d.w.out

/-- The hypotheses of `C52_round_trip_partial` about the second conversion: the text at once, and the indented text byte by byte, into a buffer of
20 bytes. -/
example : Allows false wholeMode 20 (rules wholeMode 20) ∧ Allows true wholeMode 20 (rules (streamMode true false 0) 20) ∧
    Reader.pending (exBetween.map fun c => .data c []) = exBetween ∧ 100 < exBetween.length ∧
    Inv (streamMode true false 0) 20 1000 (.new (exBetween.map fun c => .data c []) (List.replicate 20 0)) := by
  have hp : Reader.pending (exBetween.map fun c => .data c []) = exBetween := by decide +kernel
  refine ⟨allows_whole _ _ _ _ (by decide) (by decide), allows_stream _ _ _ _ _ (by decide) (by decide), hp, by decide +kernel,
    stream_new _ _ _ _ _ _ _ (by decide +kernel) (fun _ => ⟨by unfold Ascii; decide, ?_⟩) (fun h => by simp at h) (by decide) (by decide) (by decide) (by decide +kernel)⟩
  rw [hp]
  unfold Ascii
  decide +kernel

end Verif.Ddb
