import Verif.Ddb.RoundTrip
import Verif.Scan.AcceptProps

/-!
# What is not DynamoDB JSON is rejected (C51)

The converse of C49: if `convert_ddb_to_normal` accepts a stream of JSON documents, then it is a stream of items in DynamoDB JSON. As it
stands this is false; the conditions on the documents under which it is true are in `Tidy`.
-/

namespace Verif.Ddb

open Verif.RJiter Verif.Scan

/-! ## Specification -/

/-- No item is an array. -/
def flat : Items → Prop
  | .nil => True
  | .cons _ v _ more => (∀ w is, v ≠ .arr w is) ∧ flat more

mutual
/-- A value in a place where a value with its type belongs: if it is an object, then it has exactly one member. -/
def Tidy : Val → Prop
  | .obj _ (.cons _ k _ _ v _ .nil) => TidyIn k v
  | .obj _ _ => False
  | _ => True
/-- The value of the type `k`: in a set there are no arrays; the items of lists and the fields of maps are tidy. -/
def TidyIn (k : Bytes) : Val → Prop
  | .atom _ => True
  | .arr _ items => (k = [76] → TidyItems items) ∧ (k ≠ [76] → flat items)
  | .obj _ members => k = [77] → TidyMembers members
@[inherit_doc TidyIn]
def TidyItems : Items → Prop
  | .nil => True
  | .cons _ v _ more => Tidy v ∧ TidyItems more
@[inherit_doc TidyIn]
def TidyMembers : Members → Prop
  | .nil => True
  | .cons _ _ _ _ v _ more => Tidy v ∧ TidyMembers more
end

/-- The names of the members of an object. -/
def keysOf : Members → List Bytes
  | .nil => []
  | .cons _ k _ _ _ _ more => k :: keysOf more

/-- The value of the member `Item`. -/
def TidyItem : Val → Prop
  | .obj _ members => TidyMembers members
  | _ => True

/-- A document: the fields are tidy. If it has a wrapper, there are no other fields. -/
def TidyDoc (asWrapper : Bool) : Val → Prop
  | .obj _ members =>
    (¬ (asWrapper = true ∧ [73, 116, 101, 109] ∈ keysOf members) ∧ TidyMembers members) ∨
    (asWrapper = true ∧ ∃ b m m' v a, members = .cons b [73, 116, 101, 109] m m' v a .nil ∧ TidyItem v)
  | _ => True

/-! ## The induction over documents -/

/-- If the scan is not stopped, then `Q` holds behind it. If it is, the level of indentation has not become negative. -/
def Goes (o : Out ToNormal) (Q : ToNormal → Prop) : Prop :=
  match o with
  | .done b => Q b
  | .stop b _ => b.underflow = false

theorem Goes.bind {o : Out ToNormal} {k : ToNormal → Out ToNormal} {P Q : ToNormal → Prop} (h : Goes o P) (hk : ∀ b, P b → Goes (k b) Q) : Goes (o.bind k) Q := by
  cases o with
  | done b => exact hk b h
  | stop b f => exact h

namespace ToNormal

/-- No list and no set is open. -/
def Idle (ty : Option TypeDesc) : Prop := ty = none ∨ ty = some .m

theorem Idle.notL {ty : Option TypeDesc} (h : Idle ty) : ty ≠ some .l := by rcases h with rfl | rfl <;> simp

/-- Rules under which every atom has the shape of a JSON atom. -/
class Shaped (Rs : Rules) : Prop where
  atom : ∀ tok, Rs.atom tok → LooseAtom False tok

instance (M : Mode) (L : Nat) : Shaped (rules M L) where
  atom tok h := by
    cases (show IsAtom (fun n => n.length + 1 ≤ L) M.str tok from h) with
    | null => exact .null
    | true => exact .true
    | false => exact .false
    | number _ hn _ => exact .number _ hn
    | string body hb _ => exact .string body nofun (RawBody.skim hb _).weak

variable {Rs : Rules} [Shaped Rs] {C : Cfg} (R : Room)

theorem shaped_string {v : Val} (h : v.Meets Rs) {r : Bytes} (e : v.text = 34 :: r) : ∃ body, v.text = quoted body := by
  cases v with
  | arr w is => rw [Val.text] at e; cases e
  | obj w ms => rw [Val.text] at e; cases e
  | atom tok =>
    have h := Shaped.atom tok (show Rs.atom tok from h)
    simp only [Val.text] at e ⊢
    cases h with
    | null => cases e
    | true => cases e
    | false => cases e
    | number tok hn =>
      obtain ⟨c, r', e', hc⟩ := number_first hn
      rw [e] at e'
      injection e' with e' _
      subst e'
      exact absurd hc (by decide)
    | string body _ => exact ⟨body, rfl⟩

theorem shaped_bool {v : Val} (h : v.Meets Rs) {c : Byte} {r : Bytes} (hc : c = 116 ∨ c = 102) (e : v.text = c :: r) :
    v.text = if c = 116 then [116, 114, 117, 101] else [102, 97, 108, 115, 101] := by
  have no : ∀ {d : Byte} {t : Bytes}, v.text = d :: t → d = c := by
    intro d t e'
    rw [e] at e'
    injection e' with e' _
    exact e'.symm
  cases v with
  | arr w is => have := no (by rw [Val.text]); subst this; exact absurd hc (by decide)
  | obj w ms => have := no (by rw [Val.text]); subst this; exact absurd hc (by decide)
  | atom tok =>
    have h := Shaped.atom tok (show Rs.atom tok from h)
    simp only [Val.text] at e no ⊢
    cases h with
    | null => have := no rfl; subst this; exact absurd hc (by decide)
    | true => have := no rfl; subst this; rfl
    | false => have := no rfl; subst this; rfl
    | number tok hn =>
      obtain ⟨c', r', e', hc'⟩ := number_first hn
      have := no e'
      subst this
      rcases hc with rfl | rfl <;> exact absurd hc' (by decide)
    | string body _ => have := no rfl; subst this; exact absurd hc (by decide)

theorem shaped_first {v : Val} (h : v.Meets Rs) : ∃ c r, v.text = c :: r := by
  cases v with
  | arr w is => exact ⟨91, _, by rw [Val.text]⟩
  | obj w ms => exact ⟨123, _, by rw [Val.text]⟩
  | atom tok =>
    have h := Shaped.atom tok (show Rs.atom tok from h)
    simp only [Val.text]
    cases h with
    | null => exact ⟨_, _, rfl⟩
    | true => exact ⟨_, _, rfl⟩
    | false => exact ⟨_, _, rfl⟩
    | number tok hn =>
      obtain ⟨c, r, e, _⟩ := number_first hn
      exact ⟨c, r, e⟩
    | string body _ => exact ⟨_, _, rfl⟩

theorem eq_atom {v : Val} {t : Bytes} (h : v.text = t) {c : Byte} {r : Bytes} (e : t = c :: r) (h1 : c ≠ 91) (h2 : c ≠ 123) : v = .atom t := by
  cases v with
  | atom tok => rw [Val.text] at h; rw [h]
  | arr w is =>
    rw [Val.text, e] at h
    injection h with h _
    exact absurd h.symm h1
  | obj w ms =>
    rw [Val.text, e] at h
    injection h with h _
    exact absurd h.symm h2

theorem stringAt_goes {v : Val} (hv : v.Meets Rs) (q : Bool) (out : Bytes) (c : Bool) (d : Nat) (ph : Phase) (ty : Option TypeDesc) (f : Option Bytes) :
    (∃ body out', v = .atom (quoted body) ∧ stringAt q v (C.st out c d ph ty f) = (C.st out' true d ph ty f, .valueIsConsumed)) ∨
    (∃ b m, stringAt q v (C.st out c d ph ty f) = (b, .error m) ∧ b.underflow = false) := by
  obtain ⟨ch, r, e⟩ := shaped_first hv
  by_cases hc : ch = 34
  · subst hc
    obtain ⟨body, eb⟩ := shaped_string hv e
    have eb := eq_atom eb (c := 34) (r := _) rfl (by decide) (by decide)
    refine .inl ⟨body, out ++ (lead C.pretty c ++ (quotes q ++ (body ++ quotes q))), eb, ?_⟩
    rw [eb]
    exact stringAt_st C out c d ph ty f q body
  · refine .inr ⟨C.st out c d ph ty f, "Expected string value", ?_, rfl⟩
    unfold stringAt
    rw [if_neg (by rw [e]; simpa using hc)]

theorem bool_text {v : Val} (hv : v.Meets Rs) {ch : Byte} {r : Bytes} (hc : ch = 116 ∨ ch = 102) (e : v.text = ch :: r) :
    v = .atom (boolText (ch == 116)) := by
  have h : v.text = boolText (ch == 116) := by
    rw [shaped_bool hv hc e]
    rcases hc with rfl | rfl <;> rfl
  rcases hc with rfl | rfl
  · exact eq_atom h (c := 116) rfl (by decide) (by decide)
  · exact eq_atom h (c := 102) rfl (by decide) (by decide)

/-- The value `v` with its type `k`, without space. -/
def one (k : Bytes) (v : Val) : Val := .obj [] (.cons [] k [] [] v.strip [] .nil)

theorem wrap_strip (sp : Sp) (k : Bytes) (v : Val) : (sp.wrap k v).strip = one k v := by
  simp [Sp.wrap, Val.strip, Members.strip, one]

/-- The types that are not containers. -/
def Scalar (k : Bytes) : Prop := k = [83] ∨ k = [66] ∨ k = [78] ∨ k = [66, 79, 79, 76] ∨ k = [78, 85, 76, 76]

theorem scalar_goes {v : Val} (hv : v.Meets Rs) {k : Bytes} (hk : Scalar k) (out : Bytes) (c : Bool) (d : Nat) (ty : Option TypeDesc) :
    (∃ out', (∃ D : DVal, D.json.strip = one k v) ∧
      typeAt v (C.st out c d .typeKey ty (some k)) = (C.st out' true d .value none (some k), .valueIsConsumed)) ∨
    (∃ b m, typeAt v (C.st out c d .typeKey ty (some k)) = (b, .error m) ∧ b.underflow = false) := by
  obtain ⟨ch, r, e⟩ := shaped_first hv
  rcases hk with rfl | rfl | rfl | rfl | rfl
  · rcases stringAt_goes (C := C) hv true out c d .typeKey ty (some [83]) with ⟨body, out', eb, _⟩ | ⟨b, m, eb, hu⟩
    · rw [eb]
      exact .inl ⟨_, ⟨.string .no false body, wrap_strip _ _ _⟩, type_string _ _ _ (.inl rfl) _ _ _⟩
    · exact .inr ⟨{ b with type := none, phase := .value }, m, by simp only [typeAt, st_field, true_or, if_true, eb, Prod.map]; rfl, hu⟩
  · rcases stringAt_goes (C := C) hv true out c d .typeKey ty (some [66]) with ⟨body, out', eb, _⟩ | ⟨b, m, eb, hu⟩
    · rw [eb]
      exact .inl ⟨_, ⟨.string .no true body, wrap_strip _ _ _⟩, type_string _ _ _ (.inr rfl) _ _ _⟩
    · exact .inr ⟨{ b with type := none, phase := .value }, m, by simp only [typeAt, st_field, or_true, if_true, eb, Prod.map]; rfl, hu⟩
  · rcases stringAt_goes (C := C) hv false out c d .typeKey ty (some [78]) with ⟨body, out', eb, _⟩ | ⟨b, m, eb, hu⟩
    · rw [eb]
      exact .inl ⟨_, ⟨.number .no body, wrap_strip _ _ _⟩, type_number _ _ _ _ _⟩
    · refine .inr ⟨{ b with type := none, phase := .value }, m, ?_, hu⟩
      simp only [typeAt, st_field]
      rw [if_neg (by simp), if_pos trivial, eb]
      rfl
  · by_cases hc : ch = 116 ∨ ch = 102
    · have hb := bool_text hv hc e
      rw [hb]
      exact .inl ⟨_, ⟨.bool .no (ch == 116), wrap_strip _ _ _⟩, type_bool _ _ _ _ _⟩
    · refine .inr ⟨{ C.st out c d .typeKey ty (some [66, 79, 79, 76]) with phase := .value }, "Expected boolean value for BOOL type", ?_, rfl⟩
      simp only [typeAt, st_field]
      rw [if_neg (by simp), if_neg (by simp), if_pos trivial]
      simp only [boolAt, e, List.headD_cons, boolOutput, if_neg (fun h => hc (.inl h)), if_neg (fun h => hc (.inr h)), Prod.map]
      rfl
  · by_cases hc : ch = 116
    · have hb := bool_text hv (.inl hc) e
      subst hc
      rw [hb]
      exact .inl ⟨_, ⟨.null .no, wrap_strip _ _ _⟩, type_null _ _ _ _⟩
    · refine .inr ⟨{ C.st out c d .typeKey ty (some [78, 85, 76, 76]) with phase := .value }, "Expected true for NULL type", ?_, rfl⟩
      simp only [typeAt, st_field]
      rw [if_neg (by simp), if_neg (by simp), if_neg (by simp), if_pos trivial]
      simp only [boolAt, e, List.headD_cons, nullOutput, if_neg hc, Prod.map]
      rfl

/-- The elements of a set. -/
theorem elems_goes {t : TypeDesc} (ht : t = .ss ∨ t = .ns) (path : List Bytes) (d : Nat) (hd : d ≠ 0) (f : Option Bytes) :
    ∀ (is : Items) (out : Bytes) (c : Bool), is.Meets Rs → flat is →
    Goes (is.scan guarded R (nameArray :: path) (C.st out c d .value (some t) f)) fun b =>
      (∃ es, (elemsJson es).strip = is.strip) ∧ ∃ out' c', b = C.st out' c' d .value (some t) f
  | .nil, out, c, _, _ => by
    simp only [Items.scan, Goes]
    exact ⟨⟨[], rfl⟩, out, c, rfl⟩
  | .cons b v a more, out, c, hm, hfl => by
    simp only [Items.Meets] at hm
    simp only [flat] at hfl
    have key : Goes (v.scan guarded R (nameArray :: path) (C.st out c d .value (some t) f)) fun b =>
        (∃ body, v = .atom (quoted body)) ∧ ∃ out' c', b = C.st out' c' d .value (some t) f := by
      cases v with
      | arr w is => exact absurd rfl (hfl.1 w is)
      | obj w ms =>
        have hs : guarded.start .object (nameArray :: path) (.obj w ms) (C.st out c d .value (some t) f) =
            rejected "Invalid DynamoDB JSON format: unexpected object value" (C.st out c d .value (some t) f) := by
          rw [guardH_start (Cfg.well C _ _ _ _ _ _)]
          simp [handler, hd]
        simp only [Val.scan, Handler.around, hs]
        trivial
      | atom tok =>
        have hs : ∃ q, guarded.start .atom (nameArray :: path) (.atom tok) (C.st out c d .value (some t) f) =
            stringAt q (.atom tok) (C.st out c d .value (some t) f) := by
          rw [guardH_start (Cfg.well C _ _ _ _ _ _)]
          rcases ht with rfl | rfl
          · exact ⟨true, by simp [handler]⟩
          · exact ⟨false, by simp [handler]⟩
        obtain ⟨q, hs⟩ := hs
        rcases stringAt_goes (C := C) hm.2.1 q out c d .value (some t) f with ⟨body, out', eb, e⟩ | ⟨b, m, e, hu⟩
        · simp only [Val.scan, Handler.around, hs, e]
          exact ⟨⟨body, eb⟩, out', true, rfl⟩
        · simp only [Val.scan, Handler.around, hs, e]
          exact hu
    simp only [Items.scan]
    refine key.bind ?_
    rintro _ ⟨⟨body, eb⟩, out', c', rfl⟩
    have ih := elems_goes ht path d hd f more out' c' hm.2.2.2 hfl.2
    revert ih
    cases more.scan guarded R (nameArray :: path) (C.st out' c' d .value (some t) f) with
    | stop b f => exact id
    | done b' =>
      rintro ⟨⟨es, e1⟩, h⟩
      exact ⟨⟨⟨b, body, a⟩ :: es, by simp [elemsJson, Items.strip, Val.strip, eb, e1]⟩, h⟩

/-- Behind a member of a value with its type. -/
def Typed (C : Cfg) (k : Bytes) (v : Val) (d : Nat) (parent : Bytes) (b : ToNormal) : Prop :=
  (∃ D : DVal, D.json.strip = one k v) ∧ ∃ out' f', b = C.st out' true d (after parent) none f'

theorem typed_scalar {v : Val} (hv : v.Meets Rs) {k : Bytes} (hk : Scalar k) (parent : Bytes) (r : List Bytes)
    (out : Bytes) (c : Bool) (d : Nat) (ty : Option TypeDesc) (f : Option Bytes) :
    Goes ((guarded.around .none (k :: parent :: r) v (v.scan guarded R (k :: parent :: r)) (C.st out c d .typeKey ty f)).bind
      (guarded.end .none (k :: parent :: r))) (Typed C k v d parent) := by
  simp only [Handler.around, start_key]
  rcases scalar_goes (C := C) hv hk out c d ty with ⟨out', h1, h2⟩ | ⟨b, m, h2, hu⟩
  · rw [h2]
    simp only [Out.bind, end_value]
    exact ⟨h1, out', some k, rfl⟩
  · rw [h2]
    exact hu

/-- A type that is not known. -/
theorem typed_unknown {k : Bytes} (hk : ¬ Scalar k) (h1 : k ≠ [83, 83]) (h2 : k ≠ [66, 83]) (h3 : k ≠ [78, 83]) (h4 : k ≠ [76]) (h5 : k ≠ [77]) (v : Val) (parent : Bytes)
    (r : List Bytes) (out : Bytes) (c : Bool) (d : Nat) (ty : Option TypeDesc) (f : Option Bytes) (Q : ToNormal → Prop) :
    Goes ((guarded.around .none (k :: parent :: r) v (v.scan guarded R (k :: parent :: r)) (C.st out c d .typeKey ty f)).bind
      (guarded.end .none (k :: parent :: r))) Q := by
  simp only [Scalar, not_or] at hk
  simp only [Handler.around, start_key, typeAt, st_field, h1, h2, h3, h4, h5, hk, or_self, if_false]
  trivial

theorem typed_set {k : Bytes} {t : TypeDesc} (hk : t = .ss ∧ (k = [83, 83] ∨ k = [66, 83]) ∨ t = .ns ∧ k = [78, 83]) (v : Val) (hv : v.Meets Rs) (htd : TidyIn k v)
    (parent : Bytes) (r : List Bytes) (out : Bytes) (c : Bool) (d : Nat) (hd : d ≠ 0) (ty : Option TypeDesc) (f : Option Bytes) :
    Goes ((guarded.around .none (k :: parent :: r) v (v.scan guarded R (k :: parent :: r)) (C.st out c d .typeKey ty f)).bind
      (guarded.end .none (k :: parent :: r))) (Typed C k v d parent) := by
  have ht : typeAt v (C.st out c d .typeKey ty (some k)) = (C.st (out ++ [91]) false d .value (some t) (some k), .none) := by
    rcases hk with ⟨rfl, rfl | rfl⟩ | ⟨rfl, rfl⟩ <;> simp [typeAt, setBegin_st]
  have hka : k ≠ nameArray := by
    rcases hk with ⟨_, rfl | rfl⟩ | ⟨_, rfl⟩ <;> simp [nameArray]
  have hkl : k ≠ [76] := by
    rcases hk with ⟨_, rfl | rfl⟩ | ⟨_, rfl⟩ <;> simp
  simp only [Handler.around, start_key, ht]
  refine Goes.bind (P := fun b => (∃ es, (Val.arr [] (elemsJson es)).strip = v.strip) ∧ ∃ out' f', b = C.st out' true d .value none f') ?_ ?_
  · cases v with
    | atom tok =>
      have hs : guarded.start .atom (k :: parent :: r) (.atom tok) (C.st (out ++ [91]) false d .value (some t) (some k)) =
          rejected atomMessage (C.st (out ++ [91]) false d .value (some t) (some k)) := by
        rw [guardH_start (Cfg.well C _ _ _ _ _ _)]
        simp [handler, hka]
      simp only [Val.scan, Handler.around, hs]
      trivial
    | obj w ms =>
      have hs : guarded.start .object (k :: parent :: r) (.obj w ms) (C.st (out ++ [91]) false d .value (some t) (some k)) =
          rejected "Invalid DynamoDB JSON format: unexpected object value" (C.st (out ++ [91]) false d .value (some t) (some k)) := by
        rw [guardH_start (Cfg.well C _ _ _ _ _ _)]
        simp [handler, hd]
      simp only [Val.scan, Handler.around, hs]
      trivial
    | arr w is =>
      have hs : guarded.start .array (k :: parent :: r) (.arr w is) (C.st (out ++ [91]) false d .value (some t) (some k)) =
          (C.st (out ++ [91]) false d .value (some t) (some k), .none) := by
        rw [guardH_start (Cfg.well C _ _ _ _ _ _)]
        rcases hk with ⟨rfl, -⟩ | ⟨rfl, -⟩ <;> rfl
      simp only [Val.scan, Handler.around, hs]
      split
      · refine (elems_goes (C := C) R (by rcases hk with ⟨rfl, -⟩ | ⟨rfl, -⟩ <;> simp) (k :: parent :: r) d hd (some k) is (out ++ [91]) false
          (by simpa only [Val.Meets] using hv.2) (htd.2 hkl)).bind ?_
        rintro _ ⟨⟨es, e1⟩, out', c', rfl⟩
        simp only [Handler.end, guardH_finish (Cfg.well C _ _ _ _ _ _)]
        simp only [handler, findEnd, st_phase, reduceCtorEq, if_false, if_true, ended, setEnd_st]
        exact ⟨⟨es, by simp [Val.strip, e1]⟩, _, _, rfl⟩
      · trivial
  · rintro _ ⟨⟨es, e⟩, out', f', rfl⟩
    rw [end_value]
    refine ⟨?_, out', f', rfl⟩
    rcases hk with ⟨_, rfl | rfl⟩ | ⟨_, rfl⟩
    · exact ⟨.strings .no false [] es, (wrap_strip _ _ _).trans (by simp [one, e])⟩
    · exact ⟨.strings .no true [] es, (wrap_strip _ _ _).trans (by simp [one, e])⟩
    · exact ⟨.numbers .no [] es, (wrap_strip _ _ _).trans (by simp [one, e])⟩

set_option linter.unusedSectionVars false

mutual
theorem value_goes : ∀ (V : Val) (parent : Bytes) (r : List Bytes) (out : Bytes) (c : Bool) (d : Nat) (ty : Option TypeDesc) (f : Option Bytes),
    r ≠ [] → d ≠ 0 → Idle ty → V.Meets Rs → V.Keys (· ≠ nameArray) → Tidy V →
    Goes (V.scan guarded R (parent :: r) (C.st out c d .typeKey ty f)) fun b =>
      (∃ D : DVal, D.json.strip = V.strip) ∧ ∃ out' f', b = C.st out' true d (after parent) none f'
  | .atom tok, parent, r, out, c, d, ty, f, hr, hd, hty, hm, hk, htd => by
    have hs : guarded.start .atom (parent :: r) (.atom tok) (C.st out c d .typeKey ty f) = rejected atomMessage (C.st out c d .typeKey ty f) := by
      rw [guardH_start (Cfg.well C _ _ _ _ _ _)]
      simp [handler]
    simp only [Val.scan, Handler.around, hs]
    trivial
  | .arr w is, parent, r, out, c, d, ty, f, hr, hd, hty, hm, hk, htd => by
    have hs : guarded.start .array (parent :: r) (.arr w is) (C.st out c d .typeKey ty f) =
        rejected "Invalid DynamoDB JSON format: unexpected array value" (C.st out c d .typeKey ty f) := by
      rw [guardH_start (Cfg.well C _ _ _ _ _ _)]
      rcases hty with rfl | rfl <;> rfl
    simp only [Val.scan, Handler.around, hs]
    trivial
  | .obj w .nil, parent, r, out, c, d, ty, f, hr, hd, hty, hm, hk, htd => by
    simp [Tidy] at htd
  | .obj w (.cons b k m m' v a (.cons b2 k2 m2 m2' v2 a2 more)), parent, r, out, c, d, ty, f, hr, hd, hty, hm, hk, htd => by
    simp [Tidy] at htd
  | .obj w (.cons b k m m' v a .nil), parent, r, out, c, d, ty, f, hr, hd, hty, hm, hk, htd => by
    have hs : guarded.start .object (parent :: r) (.obj w (.cons b k m m' v a .nil)) (C.st out c d .typeKey ty f) = (C.st out c d .typeKey ty f, .none) := by
      rw [guardH_start (Cfg.well C _ _ _ _ _ _)]
      simp [handler, hd, hty.notL]
    have he : ∀ o f, guarded.finish .object (parent :: r) (C.st o true d (after parent) none f) = (C.st o true d (after parent) none f, none) := by
      intro o f
      rw [guardH_finish (Cfg.well C _ _ _ _ _ _)]
      simp [handler, findEnd, ended, hr]
    simp only [Val.Meets, Members.Meets] at hm
    simp only [Val.Keys, Members.Keys] at hk
    simp only [Tidy] at htd
    simp only [Val.scan, Members.scan]
    rw [Handler.around]
    simp only [hs]
    by_cases hfit : R.Fits (parent :: r) k
    · rw [if_pos hfit]
      refine Goes.bind (P := fun b' => Typed C k v d parent b') (Goes.bind (P := fun b' => Typed C k v d parent b')
        (typed_goes v k parent r out c d ty f hd hm.2.2.2.2.2.1 hk.2.1 htd) fun b' h => h) ?_
      rintro _ ⟨h1, out', f', rfl⟩
      simp only [Handler.end, he]
      obtain ⟨D, hD⟩ := h1
      exact ⟨⟨D, by rw [hD]; simp [one, Val.strip, Members.strip]⟩, out', f', rfl⟩
    · rw [if_neg hfit]
      split <;> trivial
theorem typed_goes : ∀ (v : Val) (k parent : Bytes) (r : List Bytes) (out : Bytes) (c : Bool) (d : Nat) (ty : Option TypeDesc) (f : Option Bytes),
    d ≠ 0 → v.Meets Rs → v.Keys (· ≠ nameArray) → TidyIn k v →
    Goes ((guarded.around .none (k :: parent :: r) v (v.scan guarded R (k :: parent :: r)) (C.st out c d .typeKey ty f)).bind
      (guarded.end .none (k :: parent :: r))) (Typed C k v d parent)
  | v, k, parent, r, out, c, d, ty, f, hd, hm, hk, htd => by
    by_cases h1 : Scalar k
    · exact typed_scalar R hm h1 parent r out c d ty f
    by_cases h2 : k = [83, 83] ∨ k = [66, 83]
    · exact typed_set R (.inl ⟨rfl, h2⟩) v hm htd parent r out c d hd ty f
    by_cases h3 : k = [78, 83]
    · exact typed_set R (.inr ⟨rfl, h3⟩) v hm htd parent r out c d hd ty f
    by_cases h4 : k = [76]
    · subst h4
      have ht : typeAt v (C.st out c d .typeKey ty (some [76])) = (C.st (out ++ (lead C.pretty c ++ [91])) false d .typeKey (some .l) (some [76]), .none) := by
        simp [typeAt, listBegin_st]
      simp only [Handler.around, start_key, ht]
      match v, hm, hk, htd with
      | .atom tok, _, _, _ =>
        have hs : guarded.start .atom ([76] :: parent :: r) (.atom tok) (C.st (out ++ (lead C.pretty c ++ [91])) false d .typeKey (some .l) (some [76])) =
            rejected atomMessage (C.st (out ++ (lead C.pretty c ++ [91])) false d .typeKey (some .l) (some [76])) := by
          rw [guardH_start (Cfg.well C _ _ _ _ _ _)]
          simp [handler]
        simp only [Val.scan, Handler.around, hs]
        trivial
      | .obj w ms, _, _, _ =>
        have hs : guarded.start .object ([76] :: parent :: r) (.obj w ms) (C.st (out ++ (lead C.pretty c ++ [91])) false d .typeKey (some .l) (some [76])) =
            rejected "Invalid DynamoDB JSON format: L type expects an array value, not an object"
              (C.st (out ++ (lead C.pretty c ++ [91])) false d .typeKey (some .l) (some [76])) := by
          rw [guardH_start (Cfg.well C _ _ _ _ _ _)]
          simp [handler, hd]
        simp only [Val.scan, Handler.around, hs]
        trivial
      | .arr w is, hm, hk, htd =>
        have hs : guarded.start .array ([76] :: parent :: r) (.arr w is) (C.st (out ++ (lead C.pretty c ++ [91])) false d .typeKey (some .l) (some [76])) =
            (C.st (out ++ (lead C.pretty c ++ [91])) false d .typeKey none (some [76]), .none) := by
          rw [guardH_start (Cfg.well C _ _ _ _ _ _)]
          rfl
        simp only [Val.Meets] at hm
        simp only [Val.Keys] at hk
        simp only [TidyIn] at htd
        simp only [Val.scan, Handler.around, hs]
        split
        · refine Goes.bind (P := fun b => (∃ D : DItems, D.json.strip = is.strip) ∧ ∃ out' f', b = C.st out' true d .value none f')
            ((items_goes is ([76] :: parent :: r) _ false d none (some [76]) (by simp) hd (.inl rfl) hm.2 hk (htd.1 trivial)).bind ?_) ?_
          · rintro _ ⟨⟨D, e1⟩, out', c', ty', f', rfl⟩
            simp only [Handler.end, guardH_finish (Cfg.well C _ _ _ _ _ _)]
            simp only [handler, findEnd, st_phase, if_true, ended, listEnd_st]
            exact ⟨⟨D, e1⟩, _, _, rfl⟩
          · rintro _ ⟨⟨D, e1⟩, out', f', rfl⟩
            rw [end_value]
            exact ⟨⟨.list .no [] D, (wrap_strip _ _ _).trans (by simp [one, Val.strip, e1])⟩, out', f', rfl⟩
        · trivial
    by_cases h5 : k = [77]
    · subst h5
      have ht : typeAt v (C.st out c d .typeKey ty (some [77])) =
          (C.st (out ++ (lead C.pretty c ++ 123 :: nl C.pretty)) false (d + 1) .field (some .m) (some [77]), .none) := by
        simp [typeAt, mapBegin_st]
      simp only [Handler.around, start_key, ht]
      match v, hm, hk, htd with
      | .atom tok, _, _, _ =>
        have hs : guarded.start .atom ([77] :: parent :: r) (.atom tok) (C.st (out ++ (lead C.pretty c ++ 123 :: nl C.pretty)) false (d + 1) .field (some .m) (some [77])) =
            rejected atomMessage (C.st (out ++ (lead C.pretty c ++ 123 :: nl C.pretty)) false (d + 1) .field (some .m) (some [77])) := by
          rw [guardH_start (Cfg.well C _ _ _ _ _ _)]
          simp [handler]
        simp only [Val.scan, Handler.around, hs]
        trivial
      | .arr w is, _, _, _ =>
        have hs : guarded.start .array ([77] :: parent :: r) (.arr w is) (C.st (out ++ (lead C.pretty c ++ 123 :: nl C.pretty)) false (d + 1) .field (some .m) (some [77])) =
            rejected "Invalid DynamoDB JSON format: unexpected array value" (C.st (out ++ (lead C.pretty c ++ 123 :: nl C.pretty)) false (d + 1) .field (some .m) (some [77])) := by
          rw [guardH_start (Cfg.well C _ _ _ _ _ _)]
          rfl
        simp only [Val.scan, Handler.around, hs]
        trivial
      | .obj w ms, hm, hk, htd =>
        have hs : guarded.start .object ([77] :: parent :: r) (.obj w ms) (C.st (out ++ (lead C.pretty c ++ 123 :: nl C.pretty)) false (d + 1) .field (some .m) (some [77])) =
            (C.st (out ++ (lead C.pretty c ++ 123 :: nl C.pretty)) false (d + 1) .field (some .m) (some [77]), .none) := by
          rw [guardH_start (Cfg.well C _ _ _ _ _ _)]
          simp [handler]
        simp only [Val.Meets] at hm
        simp only [Val.Keys] at hk
        simp only [TidyIn] at htd
        simp only [Val.scan, Handler.around, hs]
        refine Goes.bind (P := fun b => (∃ D : DMembers, D.json.strip = ms.strip) ∧ ∃ out' c' ty' f', b = C.st out' c' (d + 1) .field ty' f')
          ((members_goes ms ([77] :: parent :: r) _ false (d + 1) (some .m) (some [77]) (by simp) (by simp [nameArray]) (by simp) (.inr rfl) (by simp [nameTop])
            hm.2 hk (htd trivial)).bind ?_) ?_
        · rintro _ ⟨⟨D, e1, _⟩, out', c', ty', f', _, rfl⟩
          simp only [Handler.end, guardH_finish (Cfg.well C _ _ _ _ _ _)]
          simp only [handler, findEnd, List.length_cons, Nat.add_eq_right, Nat.add_eq_zero_iff, Nat.succ_ne_self, and_false, if_false, ended]
          exact ⟨⟨D, e1⟩, _, _, _, _, rfl⟩
        · rintro _ ⟨⟨D, e1⟩, out', c', ty', f', rfl⟩
          unfold Handler.end
          rw [guardH_finish (Cfg.well C _ _ _ _ _ _)]
          have hep : endParent [77] (parent :: r) = some parent := by simp [endParent, nameItem]
          simp only [handler, findEnd, findEndKey, st_phase, ended, hep, Option.some.injEq]
          rw [if_neg (by simp [nameItem])]
          have hD : ∃ D : DVal, D.json.strip = one [77] (.obj w ms) :=
            ⟨.map .no [] D, (wrap_strip _ _ _).trans (by simp [one, Val.strip, e1])⟩
          by_cases hp : parent = nameArray
          · simp only [hp, if_true, mapEndInArray_st]
            rw [← hp]
            exact ⟨hD, _, _, by rw [show after parent = .typeKey by simp [after, hp]]⟩
          · simp only [hp, if_false, mapEnd_st]
            exact ⟨hD, _, _, by rw [show after parent = .consumed by simp [after, hp]]⟩
    exact typed_unknown R h1 (fun h => h2 (.inl h)) (fun h => h2 (.inr h)) h3 h4 h5 v parent r out c d ty f _
theorem items_goes : ∀ (is : Items) (path : List Bytes) (out : Bytes) (c : Bool) (d : Nat) (ty : Option TypeDesc) (f : Option Bytes),
    path ≠ [] → d ≠ 0 → Idle ty → is.Meets Rs → is.Keys (· ≠ nameArray) → TidyItems is →
    Goes (is.scan guarded R (nameArray :: path) (C.st out c d .typeKey ty f)) fun b =>
      (∃ D : DItems, D.json.strip = is.strip) ∧ ∃ out' c' ty' f', b = C.st out' c' d .typeKey ty' f'
  | .nil, path, out, c, d, ty, f, _, _, _, _, _, _ => by
    simp only [Items.scan, Goes]
    exact ⟨⟨.nil, by simp [DItems.json]⟩, _, _, _, _, rfl⟩
  | .cons b v a more, path, out, c, d, ty, f, hp, hd, hty, hm, hk, htd => by
    simp only [Items.Meets] at hm
    simp only [Items.Keys] at hk
    simp only [TidyItems] at htd
    simp only [Items.scan]
    refine (value_goes v nameArray path out c d ty f hp hd hty hm.2.1 hk.1 htd.1).bind ?_
    rintro _ ⟨⟨D, e⟩, out', f', rfl⟩
    have ih := items_goes more path out' true d none f' hp hd (.inl rfl) hm.2.2.2 hk.2 htd.2
    rw [show after nameArray = .typeKey from rfl]
    revert ih
    cases more.scan guarded R (nameArray :: path) (C.st out' true d .typeKey none f') with
    | stop b f => exact id
    | done b' =>
      rintro ⟨⟨D', e1⟩, h⟩
      exact ⟨⟨.cons b D a D', by simp [DItems.json, Items.strip, e, e1]⟩, h⟩
theorem members_goes : ∀ (ms : Members) (path : List Bytes) (out : Bytes) (c : Bool) (d : Nat) (ty : Option TypeDesc) (f : Option Bytes),
    path ≠ [] → path.head? ≠ some nameArray → d ≠ 0 → Idle ty → (C.asWrapper = true → path.head? = some nameTop → nameItem ∉ keysOf ms) →
    ms.Meets Rs → ms.Keys (· ≠ nameArray) → TidyMembers ms →
    Goes (ms.scan guarded R path (C.st out c d .field ty f)) fun b =>
      (∃ D : DMembers, D.json.strip = ms.strip ∧ D.keys = keysOf ms) ∧ ∃ out' c' ty' f', Idle ty' ∧ b = C.st out' c' d .field ty' f'
  | .nil, path, out, c, d, ty, f, _, _, _, h, _, _, _, _ => by
    simp only [Members.scan, Goes]
    exact ⟨⟨.nil, by simp [DMembers.json, DMembers.keys, keysOf]⟩, _, _, _, _, h, rfl⟩
  | .cons b k m m' v a more, path, out, c, d, ty, f, hp, hpa, hd, hty, hi, hm, hk, htd => by
    simp only [Members.Meets] at hm
    simp only [Members.Keys] at hk
    simp only [TidyMembers] at htd
    simp only [keysOf] at hi
    have hs : guarded.start .none (k :: path) v (C.st out c d .field ty f) =
        (C.st (out ++ (lead C.pretty c ++ (ind C.pretty d ++ 34 :: (k ++ [34, 58])))) false d .typeKey ty (some k), .none) := by
      rw [guardH_start (Cfg.well C _ _ _ _ _ _)]
      have hno : ¬ (k = nameItem ∧ (C.st out c d .field ty f).asWrapper = true ∧ path.head? = some nameTop) :=
        fun ⟨h1, h2, h3⟩ => hi h2 h3 (by simp [h1])
      simp only [handler, st_phase]
      rw [if_neg hno]
      exact congrArg (fun s : Step => s.op .none) (fieldKey_st C _ _ _ _ _ _ k)
    have hfin : ∀ o c ty f, guarded.end .none (k :: path) (C.st o c d .consumed ty f) = .done (C.st o c d .field ty f) := by
      intro o c ty f
      unfold Handler.end
      rw [guardH_finish (Cfg.well C _ _ _ _ _ _)]
      simp only [handler, findEnd, findEndKey, st_phase, ended, if_neg hpa, goto_st]
    simp only [Members.scan]
    by_cases hfit : R.Fits path k
    · rw [if_pos hfit]
      simp only [Handler.around, hs]
      refine Goes.bind (Goes.bind (P := fun b' => (∃ D : DVal, D.json.strip = v.strip) ∧ ∃ out' f', b' = C.st out' true d .consumed none f')
        (Q := fun b' => (∃ D : DVal, D.json.strip = v.strip) ∧ ∃ out' f', b' = C.st out' true d .field none f') ?_ ?_) ?_
      · have := value_goes v k path (out ++ (lead C.pretty c ++ (ind C.pretty d ++ 34 :: (k ++ [34, 58])))) false d ty (some k) hp hd hty hm.2.2.2.2.1 hk.2.1 htd.1
        rwa [show after k = .consumed by simp [after, hk.1]] at this
      · rintro _ ⟨hD, out', f', rfl⟩
        rw [hfin]
        exact ⟨hD, out', f', rfl⟩
      · rintro _ ⟨⟨D, e⟩, out', f', rfl⟩
        have ih := members_goes more path out' true d none f' hp hpa hd (.inl rfl) (fun h1 h2 h3 => hi h1 h2 (by simp [h3])) hm.2.2.2.2.2.2.2 hk.2.2 htd.2
        revert ih
        cases more.scan guarded R path (C.st out' true d .field none f') with
        | stop b f => exact id
        | done b' =>
          rintro ⟨⟨D', e1, e3⟩, h⟩
          exact ⟨⟨.cons b k m m' D a D', by simp [DMembers.json, Members.strip, e, e1], by simp [DMembers.keys, keysOf, e3]⟩, h⟩
    · rw [if_neg hfit]
      split <;> trivial
end

/-! ## Documents -/

theorem doc_goes (V : Val) (out : Bytes) (ty : Option TypeDesc) (f : Option Bytes) (hty : Idle ty) (hm : V.Meets Rs) (hk : V.Keys (· ≠ nameArray))
    (ht : TidyDoc C.asWrapper V) :
    Goes (V.scan guarded R [nameTop] (C.st out false 0 .field ty f)) fun b =>
      (∃ D : DDoc, D.json.strip = V.strip ∧ D.Reads C.asWrapper) ∧ ∃ out' ty' f', Idle ty' ∧ b = C.st out' false 0 .field ty' f' := by
  cases V with
  | atom tok =>
    have hs : guarded.start .atom [nameTop] (.atom tok) (C.st out false 0 .field ty f) = rejected atomMessage (C.st out false 0 .field ty f) := by
      rw [guardH_start (Cfg.well C _ _ _ _ _ _)]
      simp [handler]
    simp only [Val.scan, Handler.around, hs]
    trivial
  | arr w is =>
    have hs : guarded.start .array [nameTop] (.arr w is) (C.st out false 0 .field ty f) =
        rejected "Invalid DynamoDB JSON format: unexpected array value" (C.st out false 0 .field ty f) := by
      rw [guardH_start (Cfg.well C _ _ _ _ _ _)]
      rcases hty with rfl | rfl <;> rfl
    simp only [Val.scan, Handler.around, hs]
    trivial
  | obj w ms =>
    have hb : guarded.start .object [nameTop] (.obj w ms) (C.st out false 0 .field ty f) = (C.st (out ++ 123 :: nl C.pretty) false 1 .field ty f, .none) := by
      rw [guardH_start (Cfg.well C _ _ _ _ _ _)]
      simp only [handler, st_depth, if_true]
      exact congrArg (fun s : Step => s.op .none) (rootObjectBegin_st C _ _ _ _ _ _)
    have he : ∀ o c ty f, guarded.finish .object [nameTop] (C.st o c 1 .field ty f) = (C.st (o ++ (nl C.pretty ++ [125, 10])) false 0 .field ty f, none) := by
      intro o c ty f
      rw [guardH_finish (Cfg.well C _ _ _ _ _ _)]
      simp [handler, findEnd, ended, rootObjectEnd_st]
    simp only [Val.Meets] at hm
    simp only [Val.Keys] at hk
    simp only [Val.scan]
    rw [Handler.around]
    simp only [hb]
    refine Goes.bind (P := fun b => (∃ D : DDoc, D.json.strip = (Val.obj w ms).strip ∧ D.Reads C.asWrapper) ∧ ∃ out' c' ty' f', Idle ty' ∧ b = C.st out' c' 1 .field ty' f') ?_ ?_
    · rcases ht with ⟨hno, ht⟩ | ⟨hw, b, m, m', v, a, rfl, ht⟩
      · have := members_goes (C := C) R ms [nameTop] (out ++ 123 :: nl C.pretty) false 1 ty f (by simp) (by simp [nameTop, nameArray]) (by simp) hty
          (fun h1 _ h3 => hno ⟨h1, h3⟩) hm.2 hk ht
        revert this
        cases ms.scan guarded R [nameTop] (C.st (out ++ 123 :: nl C.pretty) false 1 .field ty f) with
        | stop b f => exact id
        | done b =>
          rintro ⟨⟨D, e1, e3⟩, h⟩
          exact ⟨⟨.bare w D, by simp [DDoc.json, Val.strip, e1], fun h1 h2 => hno ⟨h1, e3 ▸ h2⟩⟩, h⟩
      · rw [show ([73, 116, 101, 109] : Bytes) = nameItem from rfl] at *
        have h1 : ∀ v o, guarded.start .none [nameItem, nameTop] v (C.st o false 1 .field ty f) = (C.st o false 1 .field ty f, .none) := by
          intro v o
          rw [guardH_start (Cfg.well C _ _ _ _ _ _)]
          simp [handler, hw]
        have h3 : ∀ o c ty f, guarded.end .object [nameItem, nameTop] (C.st o c 1 .field ty f) = .done (C.st o c 1 .field ty f) := by
          intro o c ty f
          unfold Handler.end
          rw [guardH_finish (Cfg.well C _ _ _ _ _ _)]
          simp [handler, findEnd, ended]
        have h4 : ∀ o c ty f, guarded.end .none [nameItem, nameTop] (C.st o c 1 .field ty f) = .done (C.st o c 1 .field ty f) := by
          intro o c ty f
          unfold Handler.end
          rw [guardH_finish (Cfg.well C _ _ _ _ _ _)]
          simp [handler, findEnd, findEndKey, ended, hw]
        simp only [Members.Meets] at hm
        simp only [Members.Keys] at hk
        simp only [Members.scan]
        split
        · refine Goes.bind (P := fun b' => (∃ D : DDoc, D.json.strip = (Val.obj w (.cons b nameItem m m' v a .nil)).strip ∧ D.Reads C.asWrapper) ∧
            ∃ out' c' ty' f', Idle ty' ∧ b' = C.st out' c' 1 .field ty' f') (Goes.bind (P := fun b' => (∃ D : DDoc, D.json.strip =
              (Val.obj w (.cons b nameItem m m' v a .nil)).strip ∧ D.Reads C.asWrapper) ∧ ∃ out' c' ty' f', Idle ty' ∧ b' = C.st out' c' 1 .field ty' f') ?_ ?_) (fun b h => h)
          · simp only [Handler.around, h1]
            cases v with
            | atom tok =>
              have hs : guarded.start .atom [nameItem, nameTop] (.atom tok) (C.st (out ++ 123 :: nl C.pretty) false 1 .field ty f) =
                  rejected atomMessage (C.st (out ++ 123 :: nl C.pretty) false 1 .field ty f) := by
                rw [guardH_start (Cfg.well C _ _ _ _ _ _)]
                simp [handler]
              simp only [Val.scan, Handler.around, hs]
              trivial
            | arr w is =>
              have hs : guarded.start .array [nameItem, nameTop] (.arr w is) (C.st (out ++ 123 :: nl C.pretty) false 1 .field ty f) =
                  rejected "Invalid DynamoDB JSON format: unexpected array value" (C.st (out ++ 123 :: nl C.pretty) false 1 .field ty f) := by
                rw [guardH_start (Cfg.well C _ _ _ _ _ _)]
                rcases hty with rfl | rfl <;> rfl
              simp only [Val.scan, Handler.around, hs]
              trivial
            | obj w' ms =>
              have h2 : guarded.start .object [nameItem, nameTop] (.obj w' ms) (C.st (out ++ 123 :: nl C.pretty) false 1 .field ty f) =
                  (C.st (out ++ 123 :: nl C.pretty) false 1 .field ty f, .none) := by
                rw [guardH_start (Cfg.well C _ _ _ _ _ _)]
                simp [handler]
              simp only [Val.Meets] at hm
              simp only [Val.Keys] at hk
              simp only [Val.scan, Handler.around, h2]
              refine (members_goes (C := C) R ms [nameItem, nameTop] (out ++ 123 :: nl C.pretty) false 1 ty f (by simp) (by simp [nameItem, nameArray]) (by simp) hty
                (by simp [nameItem, nameTop]) hm.2.2.2.2.2.1.2 hk.2.1 ht).bind ?_
              rintro _ ⟨⟨D, e1, _⟩, o, c', ty', f', hi, rfl⟩
              rw [h3]
              refine ⟨⟨.item ⟨w ++ b, m, m', a⟩ w' D, ?_, hw⟩, o, c', ty', f', hi, rfl⟩
              simp [DDoc.json, Sp.wrap, Val.strip, Members.strip, e1, nameItem]
          · rintro _ ⟨hD, o, c', ty', f', hi, rfl⟩
            rw [h4]
            exact ⟨hD, o, c', ty', f', hi, rfl⟩
        · split <;> trivial
    · rintro _ ⟨hD, o, c', ty', f', hi, rfl⟩
      simp only [Handler.end, he]
      exact ⟨hD, _, ty', f', hi, rfl⟩

theorem docs_goes : ∀ (ds : Docs) (out : Bytes) (ty : Option TypeDesc) (f : Option Bytes), Idle ty → (∀ x ∈ ds, x.2.Meets Rs) →
    (∀ x ∈ ds, x.2.Keys (· ≠ nameArray)) → (∀ x ∈ ds, TidyDoc C.asWrapper x.2) →
    Goes (Docs.scan guarded R [nameTop] ds (C.st out false 0 .field ty f)) fun b => b.underflow = false ∧
      ∃ D : DDocs, D.json.map (·.2.strip) = ds.map (·.2.strip) ∧ ∀ x ∈ D, x.2.Reads C.asWrapper
  | [], out, ty, f, _, _, _, _ => ⟨rfl, [], rfl, by simp⟩
  | (b, V) :: ds, out, ty, f, hty, hm, hk, ht => by
    simp only [Docs.scan]
    refine (doc_goes (C := C) R V out ty f hty (hm _ (List.mem_cons_self ..)) (hk _ (List.mem_cons_self ..)) (ht _ (List.mem_cons_self ..))).bind ?_
    rintro _ ⟨⟨D, e, hr⟩, o, ty', f', hi, rfl⟩
    have ih := docs_goes ds o ty' f' hi (fun x hx => hm x (List.mem_cons_of_mem _ hx)) (fun x hx => hk x (List.mem_cons_of_mem _ hx)) (fun x hx => ht x (List.mem_cons_of_mem _ hx))
    revert ih
    cases Docs.scan guarded R [nameTop] ds (C.st o false 0 .field ty' f') with
    | stop b f => exact id
    | done b' =>
      rintro ⟨hu, Ds, e1, h⟩
      refine ⟨hu, (b, D) :: Ds, by simp only [List.map_cons, ← e1, ← e]; rfl, ?_⟩
      intro x hx
      rcases List.mem_cons.1 hx with rfl | hx
      · exact hr
      · exact h x hx

end ToNormal

theorem docs_each {Rs : Rules} {tail : Bytes} : ∀ {ds : Docs}, Docs.Meets Rs ds tail → ∀ x ∈ ds, x.2.Meets Rs
  | [], _, x, hx => by cases hx
  | _ :: _, h, x, hx => by
    rcases List.mem_cons.1 hx with rfl | hx
    · exact h.2.1
    · exact docs_each h.2.2.2.2 x hx

/-- Property C51. On a stream of JSON documents `convert_ddb_to_normal` returns an error, unless it is a stream of items in DynamoDB JSON.
`M`, `L` and `F` say how the input is delivered and how large the buffer is, as in C31; there is no condition on the depth of the documents.

The full statement is without the conditions `hk` (no key is `#array`) and `ht` (where a value with its type belongs, no object has no
members or more than one; there are no arrays in sets; the wrapper is alone). It is false: `C51_empty_type`, `C51_empty_item`,
`C51_two_types`, `C51_array_in_set` and `C51_item_and_more`. The conditions on the input that are left in `Inv` and `Meets` are those of C31. -/
theorem C51_rejects_partial (M : Mode) (L F : Nat) (reader : Reader) (rb cb : Bytes) (out : Bytes) (pretty unbuffered asWrapper : Bool) (ds : Docs) (tail : Bytes)
    (hi : Inv M L F (.new reader rb)) (hcb : 277 ≤ cb.length) (hr : reader.pending = Docs.text ds tail) (hm : Docs.Meets (rules M L) ds tail)
    (hk : ∀ x ∈ ds, x.2.Keys (· ≠ nameArray)) (ht : ∀ x ∈ ds, TidyDoc asWrapper x.2)
    (turns : Nat) (hn : ds.length + reader.pending.length + 1 ≤ turns) :
    (∃ e p, (convertDdbToNormal turns F reader ⟨⟨out, []⟩, []⟩ rb cb pretty unbuffered asWrapper).2 = .err e p) ∨
    ∃ D : DDocs, D.json.map (·.2.strip) = ds.map (·.2.strip) ∧ ∀ d ∈ D, d.2.Reads asWrapper := by
  obtain ⟨pool, hp, hh⟩ := pool_new cb 68 (by decide) (by decide) (by omega)
  have hrest : (RJ.new reader rb).rest = Docs.text ds tail := by
    rw [← hr, rest_new]
  have h := scan_docs_on (opt := ⟨[], false⟩) (ToNormal.implements (M := M) (L := L) (F := F)) (ToNormal.callbacks_keep F ToNormal.sound) rfl tail [] ds
    ⟨.new reader rb, .new ⟨⟨out, []⟩, []⟩ pretty unbuffered asWrapper, pool⟩ (ToNormal.well_iff.2 ⟨rfl, rfl, by intro k; simp [ToNormal.new]⟩) hi (ready_new _ _)
    (R := ⟨cb.length - 272, 68, 68⟩) hh ⟨by simp [names], by simp [names, usedNames, nameTop]; omega, by decide, by decide, by simp [names]⟩ hm hrest
  have g := ToNormal.docs_goes (C := ⟨unbuffered, pretty, asWrapper⟩) ⟨cb.length - 272, 68, 68⟩ ds out none none (.inl rfl) (docs_each hm) hk ht
  simp only [names, List.map_nil] at h
  rw [show ToNormal.new ⟨⟨out, []⟩, []⟩ pretty unbuffered asWrapper = ToNormal.Cfg.st ⟨unbuffered, pretty, asWrapper⟩ out false 0 .field none none from rfl] at h
  revert h g
  cases Docs.scan ToNormal.guarded ⟨cb.length - 272, 68, 68⟩ [nameTop] ds (ToNormal.Cfg.st ⟨unbuffered, pretty, asWrapper⟩ out false 0 .field none none) with
  | done b =>
    rintro ⟨-, D, e, h⟩ -
    exact .inr ⟨D, e, h⟩
  | stop b f =>
    rintro - ⟨st', e, _, _, h2⟩
    have h2 := h2 turns (by rw [hrest, ← hr]; exact hn)
    refine .inl ?_
    unfold convertDdbToNormal
    simp only [hp]
    rw [show ToNormal.new ⟨⟨out, []⟩, []⟩ pretty unbuffered asWrapper = ToNormal.Cfg.st ⟨unbuffered, pretty, asWrapper⟩ out false 0 .field none none from rfl, h2]
    simp only [report]
    split <;> exact ⟨_, _, rfl⟩

/-- Property C54. On a stream of JSON documents the level of indentation of `convert_ddb_to_normal` does not become negative
(`output_depth -= 1` at 0 is a panic, or the largest number).

The full statement is without the conditions `hk` and `ht`, those of C51. It is false: `C54_underflow`. -/
theorem C54_level_partial (M : Mode) (L F : Nat) (reader : Reader) (rb cb : Bytes) (out : Bytes) (pretty unbuffered asWrapper : Bool) (ds : Docs) (tail : Bytes)
    (hi : Inv M L F (.new reader rb)) (hcb : 277 ≤ cb.length) (hr : reader.pending = Docs.text ds tail) (hm : Docs.Meets (rules M L) ds tail)
    (hk : ∀ x ∈ ds, x.2.Keys (· ≠ nameArray)) (ht : ∀ x ∈ ds, TidyDoc asWrapper x.2)
    (turns : Nat) (hn : ds.length + reader.pending.length + 1 ≤ turns) :
    (convertDdbToNormal turns F reader ⟨⟨out, []⟩, []⟩ rb cb pretty unbuffered asWrapper).1.underflow = false := by
  obtain ⟨pool, hp, hh⟩ := pool_new cb 68 (by decide) (by decide) (by omega)
  have hrest : (RJ.new reader rb).rest = Docs.text ds tail := by
    rw [← hr, rest_new]
  have h := scan_docs_on (opt := ⟨[], false⟩) (ToNormal.implements (M := M) (L := L) (F := F)) (ToNormal.callbacks_keep F ToNormal.sound) rfl tail [] ds
    ⟨.new reader rb, .new ⟨⟨out, []⟩, []⟩ pretty unbuffered asWrapper, pool⟩ (ToNormal.well_iff.2 ⟨rfl, rfl, by intro k; simp [ToNormal.new]⟩) hi (ready_new _ _)
    (R := ⟨cb.length - 272, 68, 68⟩) hh ⟨by simp [names], by simp [names, usedNames, nameTop]; omega, by decide, by decide, by simp [names]⟩ hm hrest
  have g := ToNormal.docs_goes (C := ⟨unbuffered, pretty, asWrapper⟩) ⟨cb.length - 272, 68, 68⟩ ds out none none (.inl rfl) (docs_each hm) hk ht
  simp only [names, List.map_nil] at h
  rw [show ToNormal.new ⟨⟨out, []⟩, []⟩ pretty unbuffered asWrapper = ToNormal.Cfg.st ⟨unbuffered, pretty, asWrapper⟩ out false 0 .field none none from rfl] at h
  unfold convertDdbToNormal
  simp only [hp]
  rw [show ToNormal.new ⟨⟨out, []⟩, []⟩ pretty unbuffered asWrapper = ToNormal.Cfg.st ⟨unbuffered, pretty, asWrapper⟩ out false 0 .field none none from rfl]
  revert h g
  cases Docs.scan ToNormal.guarded ⟨cb.length - 272, 68, 68⟩ [nameTop] ds (ToNormal.Cfg.st ⟨unbuffered, pretty, asWrapper⟩ out false 0 .field none none) with
  | done b =>
    rintro ⟨hu, -⟩ ⟨st', h1, _, h2⟩
    rw [h2 turns (by rw [hrest, ← hr]; exact hn)]
    simp only [h1]
    exact hu
  | stop b f =>
    rintro hu ⟨st', e, h1, _, h2⟩
    rw [h2 turns (by rw [hrest, ← hr]; exact hn)]
    simp only [h1]
    exact hu

/-! ## Examples -/

/-- The documents are no items in DynamoDB JSON. -/
def Foreign (ds : Docs) : Prop := ¬ ∃ D : DDocs, D.json.map (·.2.strip) = ds.map (·.2.strip)

/-- `{"a": v}` -/
def field (v : Val) : Docs := [([], .obj [] (.cons [] [97] [] [] v [] .nil))]

theorem foreign_field {v : Val} (h : ∀ D : DVal, D.json.strip ≠ v.strip) : Foreign (field v) := by
  rintro ⟨D, e⟩
  rcases D with _ | ⟨⟨b, d⟩, ds⟩
  · simp [DDocs.json, field] at e
  · rcases d with ⟨w, _ | ⟨b', k, m, m', D, a, more⟩⟩ | ⟨sp, w, ms⟩
    · simp [DDocs.json, field, DDoc.json, DMembers.json, Val.strip, Members.strip] at e
    · simp only [DDocs.json, field, DDoc.json, DMembers.json, Val.strip, Members.strip, List.map_cons, List.cons.injEq, Val.obj.injEq, Members.cons.injEq] at e
      exact h D e.1.2.2.2.2.2.1
    · simp [DDocs.json, field, DDoc.json, Sp.wrap, Val.strip, Members.strip] at e

theorem json_one (D : DVal) : ∃ k v, D.json.strip = ToNormal.one k v := by
  cases D <;> exact ⟨_, _, ToNormal.wrap_strip _ _ _⟩

/-- `{"a":{}}` -/
def exEmpty : Docs := field (.obj [] .nil)

/-- `{"a":{"L":[{}]}}` -/
def exEmptyItem : Docs := field (Sp.no.wrap [76] (.arr [] (.cons [] (.obj [] .nil) [] .nil)))

/-- `{"a":{"S":"x","N":{"S":"y"}}}` -/
def exTwo : Docs := field (.obj [] (.cons [] [83] [] [] (.atom (quoted [120])) [] (.cons [] [78] [] [] (Sp.no.wrap [83] (.atom (quoted [121]))) [] .nil)))

/-- `{"a":{"SS":[["x"]]}}` -/
def exInSet : Docs := field (Sp.no.wrap [83, 83] (.arr [] (.cons [] (.arr [] (.cons [] (.atom (quoted [120])) [] .nil)) [] .nil)))

/-- `{"Item":{"a":{"S":"x"}},"b":{"S":"y"}}` -/
def exBoth : Docs := [([], .obj [] (.cons [] [73, 116, 101, 109] [] [] (.obj [] (.cons [] [97] [] [] (Sp.no.wrap [83] (.atom (quoted [120]))) [] .nil)) []
  (.cons [] [98] [] [] (Sp.no.wrap [83] (.atom (quoted [121]))) [] .nil)))]

/-- `{"a":{"L":[{"S":"x"},{"X":"y"}]}}`, a list with an item of an unknown type. -/
def exUnknown : Docs := field (Sp.no.wrap [76] (.arr [] (.cons [] (Sp.no.wrap [83] (.atom (quoted [120]))) [] (.cons [] (Sp.no.wrap [88] (.atom (quoted [121]))) [] .nil))))

/-- What the converter returns for the text, and what it writes. -/
def runNormal (asWrapper : Bool) (ds : Docs) : Conv × Bytes :=
  let r := convertDdbToNormal 140 200 (whole (Docs.text ds [])) ⟨⟨[], []⟩, []⟩ (List.replicate 120 0) (List.replicate 400 0) false false asWrapper
  (r.2, r.1.d.w.out)

/-- The hypotheses of `C51_rejects_partial` and `C54_level_partial` on a list with an item of an unknown type. -/
example : Inv wholeMode 20 200 (.new (whole (Docs.text exUnknown [])) (List.replicate 120 0)) ∧
    (whole (Docs.text exUnknown [])).pending = Docs.text exUnknown [] ∧
    Docs.text exUnknown [] = "{\"a\":{\"L\":[{\"S\":\"x\"},{\"X\":\"y\"}]}}".toUTF8.toList ∧
    Docs.Meets (rules wholeMode 20) exUnknown [] ∧ (∀ x ∈ exUnknown, x.2.Keys (· ≠ nameArray)) ∧ (∀ x ∈ exUnknown, TidyDoc true x.2) ∧
    Foreign exUnknown ∧
    (runNormal true exUnknown).1 = .err (.parse "Invalid DynamoDB JSON format: unknown type descriptor" (some [88])) 26 := by
  refine ⟨whole_new _ _ 20 200 (by simp [whole, exUnknown, field, Sp.wrap, Docs.text, Val.text, Reader.OneChunk]) (by decide +kernel) (by decide) (by decide +kernel)
    (by decide +kernel), by decide +kernel, by decide +kernel, ⟨spaces_nil, plainVal_ok _ (by decide +kernel), head_whole _ _ _, trivial, spaces_nil⟩, ?_, ?_, ?_,
    by decide +kernel⟩
  · intro x hx
    simp only [exUnknown, field, List.mem_cons, List.not_mem_nil, or_false] at hx
    subst hx
    simp [Sp.wrap, Val.Keys, Members.Keys, Items.Keys, nameArray]
  · intro x hx
    simp only [exUnknown, field, List.mem_cons, List.not_mem_nil, or_false] at hx
    subst hx
    refine .inl ⟨by simp [keysOf], ?_⟩
    simp [Sp.wrap, TidyMembers, Tidy, TidyIn, TidyItems]
  · refine foreign_field fun D => ?_
    cases D with
    | list sp w is =>
      rcases is with _ | ⟨b, v, a, _ | ⟨b', v', a', more⟩⟩
      · simp [DVal.json, DItems.json, Sp.wrap, Val.strip, Members.strip, Items.strip]
      · simp [DVal.json, DItems.json, Sp.wrap, Val.strip, Members.strip, Items.strip]
      · cases v' with
        | string sp b body => cases b <;> simp [DVal.json, DItems.json, Sp.wrap, Val.strip, Members.strip, Items.strip]
        | strings sp b w es => cases b <;> simp [DVal.json, DItems.json, Sp.wrap, Val.strip, Members.strip, Items.strip]
        | _ => simp [DVal.json, DItems.json, Sp.wrap, Val.strip, Members.strip, Items.strip]
    | string sp b body => cases b <;> simp [DVal.json, Sp.wrap, Val.strip, Members.strip]
    | strings sp b w es => cases b <;> simp [DVal.json, Sp.wrap, Val.strip, Members.strip]
    | _ => simp [DVal.json, Sp.wrap, Val.strip, Members.strip]

/-- Negation of C51: a field whose value is an empty object is accepted, and the output is no JSON. -/
theorem C51_empty_type : Docs.text exEmpty [] = "{\"a\":{}}".toUTF8.toList ∧ Docs.Meets (rules wholeMode 20) exEmpty [] ∧ Foreign exEmpty ∧
    runNormal false exEmpty = (.ok, "{\"a\":}\n".toUTF8.toList) := by
  refine ⟨by decide +kernel, ⟨spaces_nil, plainVal_ok _ (by decide +kernel), trivial, trivial, spaces_nil⟩, foreign_field fun D => ?_, by decide +kernel⟩
  obtain ⟨k, v, e⟩ := json_one D
  rw [e]
  simp [ToNormal.one, Val.strip, Members.strip]

/-- Negation of C51: an empty object in a list is accepted and ignored. -/
theorem C51_empty_item : Docs.text exEmptyItem [] = "{\"a\":{\"L\":[{}]}}".toUTF8.toList ∧ Docs.Meets (rules wholeMode 20) exEmptyItem [] ∧ Foreign exEmptyItem ∧
    runNormal false exEmptyItem = (.ok, "{\"a\":[]}\n".toUTF8.toList) := by
  refine ⟨by decide +kernel, ⟨spaces_nil, plainVal_ok _ (by decide +kernel), head_whole _ _ _, trivial, spaces_nil⟩, foreign_field fun D => ?_, by decide +kernel⟩
  cases D with
  | list sp w is =>
    rcases is with _ | ⟨b, v, a, more⟩
    · simp [DVal.json, DItems.json, Sp.wrap, Val.strip, Members.strip, Items.strip]
    · obtain ⟨k, x, e⟩ := json_one v
      simp [DVal.json, DItems.json, Sp.wrap, Val.strip, Members.strip, Items.strip, e, ToNormal.one]
  | string sp b body => cases b <;> simp [DVal.json, Sp.wrap, Val.strip, Members.strip]
  | strings sp b w es => cases b <;> simp [DVal.json, Sp.wrap, Val.strip, Members.strip]
  | _ => simp [DVal.json, Sp.wrap, Val.strip, Members.strip]

/-- Negation of C51: a value with two types is accepted, the second of them as if it were a field; the output is no JSON. -/
theorem C51_two_types : Docs.text exTwo [] = "{\"a\":{\"S\":\"x\",\"N\":{\"S\":\"y\"}}}".toUTF8.toList ∧ Docs.Meets (rules wholeMode 20) exTwo [] ∧ Foreign exTwo ∧
    runNormal false exTwo = (.ok, "{\"a\":\"x\",\"N\":\"y\"}}\n".toUTF8.toList) := by
  refine ⟨by decide +kernel, ⟨spaces_nil, plainVal_ok _ (by decide +kernel), head_whole _ _ _, trivial, spaces_nil⟩, foreign_field fun D => ?_, by decide +kernel⟩
  obtain ⟨k, v, e⟩ := json_one D
  rw [e]
  simp [ToNormal.one, Val.strip, Members.strip]

/-- Negation of C51: an array in a set is accepted, and the output is no JSON. -/
theorem C51_array_in_set : Docs.text exInSet [] = "{\"a\":{\"SS\":[[\"x\"]]}}".toUTF8.toList ∧ Docs.Meets (rules wholeMode 20) exInSet [] ∧ Foreign exInSet ∧
    runNormal false exInSet = (.ok, "{\"a\":[\"x\"]]}\n".toUTF8.toList) := by
  refine ⟨by decide +kernel, ⟨spaces_nil, plainVal_ok _ (by decide +kernel), head_whole _ _ _, trivial, spaces_nil⟩, foreign_field fun D => ?_, by decide +kernel⟩
  cases D with
  | strings sp b w es =>
    rcases es with _ | ⟨e, es⟩
    · cases b <;> simp [DVal.json, elemsJson, Sp.wrap, Val.strip, Members.strip, Items.strip]
    · cases b <;> simp [DVal.json, elemsJson, Sp.wrap, Val.strip, Members.strip, Items.strip]
  | string sp b body => cases b <;> simp [DVal.json, Sp.wrap, Val.strip, Members.strip]
  | _ => simp [DVal.json, Sp.wrap, Val.strip, Members.strip]

/-- Negation of C51: with the wrapper mode, fields beside the wrapper are accepted, and mixed with those in it. -/
theorem C51_item_and_more : Docs.text exBoth [] = "{\"Item\":{\"a\":{\"S\":\"x\"}},\"b\":{\"S\":\"y\"}}".toUTF8.toList ∧ Docs.Meets (rules wholeMode 20) exBoth [] ∧
    Foreign exBoth ∧ runNormal true exBoth = (.ok, "{\"a\":\"x\",\"b\":\"y\"}\n".toUTF8.toList) := by
  refine ⟨by decide +kernel, ⟨spaces_nil, plainVal_ok _ (by decide +kernel), head_whole _ _ _, trivial, spaces_nil⟩, ?_, by decide +kernel⟩
  rintro ⟨D, e⟩
  rcases D with _ | ⟨⟨b, d⟩, ds⟩
  · simp [DDocs.json, exBoth] at e
  · rcases d with ⟨w, _ | ⟨b', k, m, m', D, a, more⟩⟩ | ⟨sp, w, ms⟩
    · simp [DDocs.json, exBoth, DDoc.json, DMembers.json, Val.strip, Members.strip] at e
    · simp only [DDocs.json, exBoth, DDoc.json, DMembers.json, Val.strip, Members.strip, List.map_cons, List.cons.injEq, Val.obj.injEq, Members.cons.injEq] at e
      have h := e.1.2.2.2.2.2.1
      revert h
      cases D with
      | string sp b body => cases b <;> simp [DVal.json, Sp.wrap, Val.strip, Members.strip]
      | strings sp b w es => cases b <;> simp [DVal.json, Sp.wrap, Val.strip, Members.strip]
      | _ => simp [DVal.json, Sp.wrap, Val.strip, Members.strip]
    · simp [DDocs.json, exBoth, DDoc.json, Sp.wrap, Val.strip, Members.strip] at e

/-- The object `{"S":"","<name>":v}`. -/
def nest (name : Byte) (v : Val) : Val := .obj [] (.cons [] [83] [] [] (.atom (quoted [])) [] (.cons [] [name] [] [] v [] .nil))

/-- `{"a":{"S":"","b":{"S":"","c":{"S":"","d":{"S":"","e":{"S":""}}}}}}` -/
def exDeep : Docs := field (nest 98 (nest 99 (nest 100 (nest 101 (Sp.no.wrap [83] (.atom (quoted [])))))))

/-- Negation of C54: values with more than one type. -/
theorem C54_underflow : Docs.text exDeep [] = "{\"a\":{\"S\":\"\",\"b\":{\"S\":\"\",\"c\":{\"S\":\"\",\"d\":{\"S\":\"\",\"e\":{\"S\":\"\"}}}}}}".toUTF8.toList ∧
    Docs.Meets (rules wholeMode 20) exDeep [] ∧ (∀ x ∈ exDeep, x.2.Keys (· ≠ nameArray)) ∧
    (convertDdbToNormal 140 200 (whole (Docs.text exDeep [])) ⟨⟨[], []⟩, []⟩ (List.replicate 120 0) (List.replicate 400 0) false false false).1.underflow = true := by
  refine ⟨by decide +kernel, ⟨spaces_nil, plainVal_ok _ (by decide +kernel), head_whole _ _ _, trivial, spaces_nil⟩, ?_, by decide +kernel⟩
  intro x hx
  simp only [exDeep, field, List.mem_cons, List.not_mem_nil, or_false] at hx
  subst hx
  simp [nest, Sp.wrap, Val.Keys, Members.Keys, nameArray]

end Verif.Ddb
