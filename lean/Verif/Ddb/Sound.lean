import Verif.Ddb.Levels
import Verif.Ddb.Reject
import Verif.Ddb.Faults
import Verif.Scan.AgainProps
import Verif.Scan.UniqueProps

/-!
# An `Ok` of `convert_ddb_to_normal` means the right output, however the input is cut (C80)
-/

namespace Verif.Ddb

open Verif.U8Pool (Pool)
open Verif.RJiter
open Verif.Scan

/-! ## Callbacks that are described under a condition -/

section
variable {β : Type}

/-- `Sees`, in states that meet `K`. -/
structure SeesOn (K : β → Prop) (cb : Callbacks β) (H : Handler β) (F : Nat) (strict : Care) : Prop where
  start : ∀ (p : Pseudo) (path : List Bytes) (b : β) (s : RJ), K b → Fine F strict s →
    match cb.find p ⟨path, path.length⟩ b with
    | (b', none) => ∀ v, H.start p path v b = (b', .none)
    | (b', some act) =>
      match act s b' with
      | ((s', b''), .op .none) => s' = s ∧ ∀ v, H.start p path v b = (b'', .none)
      | ((s', b''), .op .valueIsConsumed) => Fine F strict s' ∧ 0 < s'.jidx ∧ ∃ ws v, Blank ws ∧ Starts p v ∧ v.Loose strict.safe ∧ (0 < s.jidx → v.Tight) ∧
          v.Parted strict.len s'.rest ∧ s.rest = ws ++ (v.text ++ s'.rest) ∧ H.start p path v b = (b'', .valueIsConsumed)
      | _ => True
  finish : ∀ (p : Pseudo) (path : List Bytes) (b : β), K b → ended (cb.findEnd p ⟨path, path.length⟩ b) = H.finish p path b

theorem guard_sees {K : β → Prop} {cb : Callbacks β} {H : Handler β} {F : Nat} {strict : Care} (h : SeesOn K cb H F strict) :
    Sees (guardCb K cb) (guardH K H) F strict := by
  constructor
  · intro p path b s hf
    by_cases hK : K b
    · have := h.start p path b s hK hf
      simp only [← guardH_start (H := H) hK] at this
      simp only [guardCb, hK, if_true]
      exact this
    · simp only [guardCb, hK, if_false]
  · intro p path b
    by_cases hK : K b
    · have := h.finish p path b hK
      rw [guardH_finish hK]
      simp only [guardCb, hK, if_true]
      revert this
      rcases cb.findEnd p ⟨path, path.length⟩ b with ⟨b', _ | a⟩ <;> exact id
    · simp only [guardCb, guardH, hK, if_false]

variable {F : Nat} {strict : Care}

/-- What `Sees` wants of an action. -/
def Saw (F : Nat) (strict : Care) (p : Pseudo) (s : RJ) (H : Val → β × StreamOp) : (RJ × β) × Acted → Prop
  | ((s', b''), .op .none) => s' = s ∧ ∀ v, H v = (b'', .none)
  | ((s', b''), .op .valueIsConsumed) => Scan.Fine F strict s' ∧ 0 < s'.jidx ∧ ∃ ws v, Blank ws ∧ Starts p v ∧ v.Loose strict.safe ∧ (0 < s.jidx → v.Tight) ∧
      v.Parted strict.len s'.rest ∧ s.rest = ws ++ (v.text ++ s'.rest) ∧ H v = (b'', .valueIsConsumed)
  | _ => True

/-- The same for what a matcher returns. -/
def Sights (F : Nat) (strict : Care) (p : Pseudo) (s : RJ) (H : Val → β × StreamOp) : β × Option (Action β) → Prop
  | (b, none) => ∀ v, H v = (b, .none)
  | (b, some act) => Saw F strict p s H (act s b)

theorem sees_of {K : β → Prop} {cb : Callbacks β} {H : Handler β}
    (h : ∀ p path b s, K b → Scan.Fine F strict s → Sights F strict p s (fun v => H.start p path v b) (cb.find p ⟨path, path.length⟩ b))
    (hf : ∀ p path b, K b → ended (cb.findEnd p ⟨path, path.length⟩ b) = H.finish p path b) : SeesOn K cb H F strict := by
  refine ⟨fun p path b s hK hs => ?_, hf⟩
  have h := h p path b s hK hs
  revert h
  rcases cb.find p ⟨path, path.length⟩ b with ⟨b', _ | act⟩
  · exact id
  · simp only [Sights]
    rcases act s b' with ⟨⟨s', b''⟩, (_ | _ | m) | _ | _⟩ <;> exact id

/-! ## Space does not matter -/

/-- The handler does not look at the space inside of a value. -/
def Unspaced (H : Handler β) : Prop := ∀ p path v b, Starts p v → H.start p path v.strip b = H.start p path v b

theorem Unspaced.guard {K : β → Prop} {H : Handler β} (h : Unspaced H) : Unspaced (guardH K H) := by
  intro p path v b hp
  simp only [guardH, h p path v b hp]

theorem Unspaced.around {H : Handler β} (h : Unspaced H) (p : Pseudo) (path : List Bytes) (v : Val) (hp : Starts p v) (inner : β → Out β) :
    H.around p path v.strip inner = H.around p path v inner := by
  funext b
  simp only [Handler.around, h p path v b hp]

section
variable {H : Handler β} (h : Unspaced H) (R : Room)
include h

set_option linter.unusedSectionVars false in
mutual
theorem Unspaced.val : ∀ (v : Val) (path : List Bytes), v.strip.scan H R path = v.scan H R path
  | .atom _, _ => rfl
  | .arr w items, path => by
    have := h.around .array path (.arr w items) trivial
    simp only [Val.strip, Val.scan, Unspaced.items items]
    exact this _
  | .obj w ms, path => by
    have := h.around .object path (.obj w ms) trivial
    simp only [Val.strip, Val.scan, Unspaced.members ms]
    exact this _
theorem Unspaced.items : ∀ (is : Items) (path : List Bytes), is.strip.scan H R path = is.scan H R path
  | .nil, _ => rfl
  | .cons _ v _ more, path => by
    simp only [Items.strip, Items.scan, Unspaced.val v, Unspaced.items more]
theorem Unspaced.members : ∀ (ms : Members) (path : List Bytes), ms.strip.scan H R path = ms.scan H R path
  | .nil, _ => rfl
  | .cons _ k _ _ v _ more, path => by
    simp only [Members.strip, Members.scan, Unspaced.val v, Unspaced.members more, h.around .none _ v trivial]
end

theorem Unspaced.docs (path : List Bytes) : ∀ {ds ds' : Docs}, ds'.map (·.2.strip) = ds.map (·.2.strip) →
    Docs.scan H R path ds' = Docs.scan H R path ds
  | [], [], _ => rfl
  | [], _ :: _, e => by simp at e
  | _ :: _, [], e => by simp at e
  | (_, v) :: ds, (_, v') :: ds', e => by
    simp only [List.map_cons, List.cons.injEq] at e
    funext b
    simp only [Docs.scan]
    rw [← h.val R v', ← h.val R v, e.1, Unspaced.docs path e.2]
end

end

/-! ## The callbacks of `convert_ddb_to_normal` -/

namespace ToNormal

theorem strip_first (v : Val) : v.strip.text.head? = v.text.head? ∧ (v.text.head? = some 34 → v.strip = v) := by
  cases v with
  | atom => exact ⟨rfl, fun _ => rfl⟩
  | arr => simp [Val.strip, Val.text]
  | obj => simp [Val.strip, Val.text]

theorem stringAt_strip (q : Bool) (v : Val) (b : ToNormal) : stringAt q v.strip b = stringAt q v b := by
  unfold stringAt
  rw [(strip_first v).1]
  by_cases h : v.text.head? = some 34
  · rw [(strip_first v).2 h]
  · rw [if_neg h, if_neg h]

theorem boolAt_strip (o : Byte → Bytes × Option String) (n : String) (v : Val) (b : ToNormal) : boolAt o n v.strip b = boolAt o n v b := by
  unfold boolAt
  rw [List.headD_eq_head?_getD, (strip_first v).1, ← List.headD_eq_head?_getD]

theorem typeAt_strip (v : Val) (b : ToNormal) : typeAt v.strip b = typeAt v b := by
  unfold typeAt
  simp only [stringAt_strip, boolAt_strip]

theorem unspaced : Unspaced handler := by
  intro p path v b _
  simp only [handler, typeAt_strip, stringAt_strip]

variable {F : Nat} {strict : Care}

theorem saw_act {p : Pseudo} {s : RJ} (f : ToNormal → Step) (b : ToNormal) : Saw F strict p s (fun _ => (f b).op .none) (act f .none s b) := by
  unfold act
  rcases f b with ⟨b', _ | m⟩
  · exact ⟨rfl, fun _ => rfl⟩
  · trivial

theorem saw_settle {p : Pseudo} {s : RJ} {H : Val → ToNormal × StreamOp} {x : (RJ × ToNormal) × Acted} (h : Saw F strict p s H x)
    (g : ToNormal → ToNormal) : Saw F strict p s (fun v => Prod.map g id (H v)) (settle g x) := by
  rcases x with ⟨⟨s', b⟩, (_ | _ | m) | _ | _⟩
  · exact ⟨h.1, fun v => by simp only [h.2 v]; rfl⟩
  · obtain ⟨h1, h2, ws, v, h3, h4, h5, h6, h7, h8, h9⟩ := h
    exact ⟨h1, h2, ws, v, h3, h4, h5, h6, h7, h8, by simp only [h9]; rfl⟩
  · trivial
  · trivial
  · trivial

theorem saw_atom {p : Pseudo} (hp : p = .none ∨ p = .atom) {s s1 s2 : RJ} {ws tok : Bytes} {H : Val → ToNormal × StreamOp} (hws : Blank ws)
    (hr : s.rest = ws ++ s1.rest) (ha : Atom F strict s1 s2 tok) {f : ToNormal → Step} {b : ToNormal}
    (hH : H (.atom tok) = (f b).op .valueIsConsumed) : Saw F strict p s H (act f .valueIsConsumed s2 b) := by
  unfold act
  revert hH
  rcases f b with ⟨b', _ | m⟩
  · intro hH
    obtain ⟨h1, h2, ws2, h3, h4, h5, h6⟩ := ha
    refine ⟨h1, h2, ws ++ ws2, .atom tok, hws.append h3, ?_, h4, fun _ => trivial, h5, ?_, hH⟩
    · rcases hp with rfl | rfl <;> trivial
    · rw [hr, h6, List.append_assoc]; rfl
  · intro _; trivial

theorem writeString_saw {p : Pseudo} (hp : p = .none ∨ p = .atom) {s : RJ} (hf : Scan.Fine F strict s) {b : ToNormal} (hb : b.d.w.plan = []) (q : Bool) (c1 c2 : String) :
    Saw F strict p s (fun v => stringAt q v b) (writeString F q c1 c2 s b) := by
  unfold writeString
  rcases hx : s.peek F with ⟨s1, c | e | _ | _⟩
  · obtain ⟨ws, t, e, hws, hc, hs, hm⟩ := RJ.peek_text hf.usable.sync hf.len hf.usable.fuel hx
    have hf1 : Scan.Fine F strict s1 := hf.loop hm hx
    simp only
    by_cases h34 : c = 34
    · subst h34
      rw [if_neg (by simp)]
      have hfine := (fine_writeComma b).bind (fine_quote q "writing opening quote")
      have hS : ∀ body, stringAt q (.atom (34 :: (body ++ [34]))) b = (b.string q body).op .valueIsConsumed := by
        intro body
        simp [stringAt, Val.text]
      simp only [string] at hS
      revert hfine hS
      rcases b.writeComma.bind (quote q "writing opening quote") with ⟨b1, _ | m⟩
      · intro hfine hS
        have hp1 : b1.d.w.plan = [] := by
          obtain ⟨ws, fs, h1, h2, _⟩ := hfine.1
          rw [hb] at h1
          simp only [List.nil_eq, List.append_eq_nil_iff] at h1
          exact h1.2
        simp only [Step.run]
        rcases hy : s1.writeLongBytes F b1.d.w with ⟨⟨s2, w2⟩, u | e2 | _ | _⟩
        · obtain ⟨body, ha, ho⟩ := string_atom hf1 hs hy
          have hw2 : w2 = ⟨b1.d.w.out ++ body, []⟩ := by
            have := handleLong_wrote .raw F s1 b1.d.w
            rw [show RJ.handleLong .raw F s1 b1.d.w = _ from hy] at this
            refine Writer.clean_eq ?_ ho
            rcases this with h | ⟨_, _, _, h⟩
            · exact h.clean hp1
            · cases h
          subst hw2
          simp only
          refine saw_atom hp (Blank.of_aws hws) (by rw [e, ← hs]) ha ?_
          rw [hS body]
          rfl
        · trivial
        · trivial
        · trivial
      · intro _ _; trivial
    · rw [if_pos h34]; trivial
  · trivial
  · trivial
  · trivial

theorem writeBool_saw {p : Pseudo} (hp : p = .none ∨ p = .atom) {s : RJ} (hf : Scan.Fine F strict s) {b : ToNormal} (o : Byte → Bytes × Option String)
    (ho : ∀ c, (o c).2 = none → c = 116 ∨ c = 102) (name : String) :
    Saw F strict p s (fun v => boolAt o name v b) (writeBool F o name s b) := by
  unfold writeBool
  rcases hx : s.peek F with ⟨s1, c | e | _ | _⟩
  · obtain ⟨ws, t, e, hws, hc, hs, hm⟩ := RJ.peek_text hf.usable.sync hf.len hf.usable.fuel hx
    have hf1 : Scan.Fine F strict s1 := hf.loop hm hx
    simp only
    have ho := ho c
    have hB : ∀ r, boolAt o name (.atom (c :: r)) b = match o c with
        | (_, some m) => (b, .error m)
        | (bytes, none) => (b.writeComma.bind fun b => (b.put bytes name).bind (set fun b => { b with comma := true, type := none })).op .valueIsConsumed := fun _ => rfl
    revert ho hB
    rcases o c with ⟨bytes, _ | m⟩
    · intro ho hB
      have hc := ho rfl
      simp only at hB ⊢
      revert hB
      rcases b.writeComma with ⟨b1, _ | m⟩
      · intro hB
        simp only [Step.run]
        rcases hy : s1.knownBool F c with ⟨s2, u | e2 | _ | _⟩
        · simp only
          rcases hc with rfl | rfl
          · exact saw_atom hp (Blank.of_aws hws) (by rw [e, ← hs]) (true_atom hf1 hs hy) (hB _)
          · exact saw_atom hp (Blank.of_aws hws) (by rw [e, ← hs]) (false_atom hf1 hs hy) (hB _)
        · trivial
        · trivial
        · trivial
      · intro _; trivial
    · intro _ _; trivial
  · trivial
  · trivial
  · trivial

theorem onTypeKey_saw {s : RJ} (hf : Scan.Fine F strict s) {b : ToNormal} (hb : b.d.w.plan = []) :
    Saw F strict .none s (fun v => typeAt v b) (onTypeKey F s b) := by
  have hbo : ∀ c, (boolOutput c).2 = none → c = 116 ∨ c = 102 := by
    intro c h
    unfold boolOutput at h
    split at h
    · exact .inl ‹_›
    · split at h
      · exact .inr ‹_›
      · cases h
  have hno : ∀ c, (nullOutput c).2 = none → c = 116 ∨ c = 102 := by
    intro c h
    unfold nullOutput at h
    split at h
    · exact .inl ‹_›
    · cases h
  unfold typeAt onTypeKey
  cases b.field with
  | none => trivial
  | some key =>
    simp only
    split
    · exact saw_settle (writeString_saw (.inl rfl) hf hb _ _ _) _
    · split
      · exact saw_settle (writeString_saw (.inl rfl) hf hb _ _ _) _
      · split
        · exact saw_settle (writeBool_saw (.inl rfl) hf _ hbo _) _
        · split
          · exact saw_settle (writeBool_saw (.inl rfl) hf _ hno _) _
          · split
            · exact saw_act _ _
            · split
              · exact saw_act _ _
              · split
                · exact saw_act _ _
                · split
                  · exact saw_act _ _
                  · trivial

theorem sees : SeesOn (Well sound) (callbacks F) handler F strict := by
  refine sees_of ?_ fun p path b _ => rfl
  intro p path b s hb hf
  have hp := (well_iff.1 hb).1
  simp only [callbacks, find, handler]
  cases p with
  | object =>
    simp only [findObject]
    split
    · exact saw_act _ _
    · cases b.phase with
      | value => trivial
      | typeKey =>
        simp only
        split
        · trivial
        · exact fun _ => rfl
      | field => exact fun _ => rfl
      | consumed =>
        simp only
        split
        · exact fun _ => rfl
        · trivial
  | none =>
    rcases path with _ | ⟨key, above⟩
    · exact fun _ => rfl
    · simp only [findKey]
      rcases hph : b.phase with _ | _ | _ | _
      case value =>
        simp only
        split
        · exact onTypeKey_saw hf hp
        · trivial
      case typeKey => exact onTypeKey_saw (b := { b with field := some key, phase := .typeKey }) hf hp
      case field =>
        simp only
        split
        · exact fun _ => rfl
        · exact saw_act _ _
      case consumed => exact saw_act _ _
  | array =>
    simp only [findArray]
    rcases b.type with _ | _ | _ | _ | _
    · trivial
    · exact fun _ => rfl
    · exact fun _ => rfl
    · exact fun _ => rfl
    · trivial
  | atom =>
    simp only [findAtom]
    split
    · trivial
    · split
      · split
        · exact writeString_saw (.inr rfl) hf hp _ _ _
        · exact writeString_saw (.inr rfl) hf hp _ _ _
      · trivial

/-! ## Documents without their space -/

/-- Atoms as `scan` lets them through. -/
def looseRules : Rules := ⟨LooseAtom False, fun _ _ => True, fun _ _ _ _ => True⟩

instance : Shaped looseRules := ⟨fun _ h => h⟩

theorem headMeets_loose (ws : Bytes) (v : Val) : v.HeadMeets looseRules ws := by
  rcases v with _ | _ | ⟨_, _ | _⟩ <;> trivial

section
variable {P : Prop}
mutual
theorem strip_meets : ∀ (v : Val), v.Loose P → v.strip.Meets looseRules
  | .atom tok, h => by
    cases (show LooseAtom P tok from h) with
    | null => exact .null
    | true => exact .true
    | false => exact .false
    | number _ hn => exact .number _ hn
    | string body _ hb => exact .string body nofun hb
  | .arr _ is, h => ⟨List.forall_mem_nil _, strip_meets_items is h.2⟩
  | .obj _ ms, h => ⟨List.forall_mem_nil _, strip_meets_members ms h.2⟩
theorem strip_meets_items : ∀ (is : Items), is.Loose P → is.strip.Meets looseRules
  | .nil, _ => trivial
  | .cons _ v _ more, h => ⟨List.forall_mem_nil _, strip_meets v h.2.2.1, List.forall_mem_nil _, strip_meets_items more h.2.2.2.2⟩
theorem strip_meets_members : ∀ (ms : Members), ms.Loose P → ms.strip.Meets looseRules
  | .nil, _ => trivial
  | .cons _ _ _ _ v _ more, h => ⟨List.forall_mem_nil _, trivial, List.forall_mem_nil _, List.forall_mem_nil _, strip_meets v h.2.2.2.2.1,
      headMeets_loose _ _, List.forall_mem_nil _, strip_meets_members more h.2.2.2.2.2.2⟩
end

theorem docs_strip_meets {tail : Bytes} : ∀ {ds : Docs}, Docs.Loose P ds tail → ∀ x ∈ ds, x.2.strip.Meets looseRules
  | [], _, x, hx => by cases hx
  | (_, v) :: _, h, x, hx => by
    rcases List.mem_cons.1 hx with rfl | hx
    · exact strip_meets v h.2.1
    · exact docs_strip_meets h.2.2 x hx
end

theorem flat_strip : ∀ (is : Items), flat is → flat is.strip
  | .nil, _ => trivial
  | .cons _ v _ more, h => by
    refine ⟨fun w is e => ?_, flat_strip more h.2⟩
    cases v with
    | arr w' is' => exact h.1 _ _ rfl
    | atom => cases e
    | obj => cases e

mutual
theorem tidy_strip : ∀ (v : Val), Ddb.Tidy v → Ddb.Tidy v.strip
  | .atom _, _ => trivial
  | .arr _ _, _ => trivial
  | .obj _ .nil, h => h.elim
  | .obj _ (.cons _ k _ _ v _ .nil), h => tidyIn_strip k v h
  | .obj _ (.cons _ _ _ _ _ _ (.cons _ _ _ _ _ _ _)), h => h.elim
theorem tidyIn_strip (k : Bytes) : ∀ (v : Val), TidyIn k v → TidyIn k v.strip
  | .atom _, _ => trivial
  | .arr _ is, h => ⟨fun hk => tidyItems_strip is (h.1 hk), fun hk => flat_strip is (h.2 hk)⟩
  | .obj _ ms, h => fun hk => tidyMembers_strip ms (h hk)
theorem tidyItems_strip : ∀ (is : Items), TidyItems is → TidyItems is.strip
  | .nil, _ => trivial
  | .cons _ v _ more, h => ⟨tidy_strip v h.1, tidyItems_strip more h.2⟩
theorem tidyMembers_strip : ∀ (ms : Members), TidyMembers ms → TidyMembers ms.strip
  | .nil, _ => trivial
  | .cons _ _ _ _ v _ more, h => ⟨tidy_strip v h.1, tidyMembers_strip more h.2⟩
end

theorem keysOf_strip : ∀ (ms : Members), keysOf ms.strip = keysOf ms
  | .nil => rfl
  | .cons _ k _ _ _ _ more => congrArg (k :: ·) (keysOf_strip more)

theorem tidyDoc_strip {asWrapper : Bool} {v : Val} (h : TidyDoc asWrapper v) : TidyDoc asWrapper v.strip := by
  cases v with
  | atom => trivial
  | arr => trivial
  | obj w ms =>
    rcases h with ⟨h1, h2⟩ | ⟨h1, b, m, m', v, a, rfl, h2⟩
    · exact .inl ⟨by rw [keysOf_strip]; exact h1, tidyMembers_strip ms h2⟩
    · refine .inr ⟨h1, [], [], [], v.strip, [], rfl, ?_⟩
      cases v with
      | atom => trivial
      | arr => trivial
      | obj w ms => exact tidyMembers_strip ms h2

section
variable {P : Bytes → Prop}
mutual
theorem names_of_keys : ∀ (v : DVal), v.json.Keys P → v.Names P
  | .string _ _ _, _ => trivial
  | .number _ _, _ => trivial
  | .bool _ _, _ => trivial
  | .null _, _ => trivial
  | .strings _ _ _ _, _ => trivial
  | .numbers _ _ _, _ => trivial
  | .list _ _ items, h => names_of_keys_items items h.2.1
  | .map _ _ ms, h => names_of_keys_members ms h.2.1
theorem names_of_keys_items : ∀ (is : DItems), is.json.Keys P → is.Names P
  | .nil, _ => trivial
  | .cons _ v _ more, h => ⟨names_of_keys v h.1, names_of_keys_items more h.2⟩
theorem names_of_keys_members : ∀ (ms : DMembers), ms.json.Keys P → ms.Names P
  | .nil, _ => trivial
  | .cons _ _ _ _ v _ more, h => ⟨h.1, names_of_keys v h.2.1, names_of_keys_members more h.2.2⟩
end

theorem names_of_keys_doc : ∀ (d : DDoc), d.json.Keys P → d.members.Names P
  | .bare _ ms, h => names_of_keys_members ms h
  | .item _ _ ms, h => names_of_keys_members ms h.2.1
end

/-! ## An `Ok` -/

/-- An atom is not a document. -/
theorem no_atoms (R : Room) : ∀ (ds : Docs) (b b' : ToNormal), Docs.scan guarded R [nameTop] ds b = .done b' → ∀ d ∈ ds, ∀ tok, d.2 ≠ .atom tok
  | [], _, _, _, d, hd => by cases hd
  | (w, v) :: ds, b, b', h, d, hd => by
    obtain ⟨c, h1, h2⟩ := Scan.Out.bind_done h
    rcases List.mem_cons.1 hd with rfl | hd
    · rintro tok rfl
      simp only [Val.scan, Handler.around] at h1
      have : ∃ m, (guarded.start .atom [nameTop] (.atom tok) b).2 = .error m := by
        by_cases hK : Well sound b
        · rw [guarded, guardH_start hK]
          simp only [handler, rejected]
          split
          · exact ⟨_, rfl⟩
          · rw [if_neg (by rintro ⟨_, h⟩; exact absurd h (by decide))]
            exact ⟨_, rfl⟩
        · exact ⟨_, by simp only [guarded, guardH, hK, if_false]; rfl⟩
      obtain ⟨m, hm⟩ := this
      rcases hs : guarded.start .atom [nameTop] (.atom tok) b with ⟨b1, o⟩
      rw [hs] at h1 hm
      subst hm
      simp at h1
    · exact no_atoms R ds c b' h2 d hd

/-- What an `Ok` means, whatever the writer does. -/
theorem ok_docs {turns F : Nat} {reader : Reader} {d : Dest} {rb cb : Bytes} {pretty unbuffered asWrapper : Bool} (hu : Usable F (.new reader rb))
    (h : (convertDdbToNormal turns F reader d rb cb pretty unbuffered asWrapper).2 = .ok) :
    ∃ ds tail b', reader.pending = Docs.text ds tail ∧ Docs.Loose (Harmless (.new reader rb)) ds tail ∧ Docs.Parted rb.length ds tail ∧
      Docs.scan guarded ⟨cb.length - 272, 68, 68⟩ [nameTop] ds (Cfg.st ⟨false, pretty, asWrapper⟩ d.w.out false 0 .field none none) = .done b' ∧
      (convertDdbToNormal turns F reader d rb cb pretty unbuffered asWrapper).1.d.w.out = b'.d.w.out := by
  have hp := (C74_to_normal turns F reader d rb cb pretty unbuffered asWrapper).1 (by intro e p; rw [h]; simp)
  rw [h] at hp
  have hout : (convertDdbToNormal turns F reader d rb cb pretty unbuffered asWrapper).1.d.w.out =
      (convertDdbToNormal turns F reader d.perfect rb cb pretty false asWrapper).1.d.w.out := by rw [hp]; rfl
  rw [hout]
  have h2 : (convertDdbToNormal turns F reader d.perfect rb cb pretty false asWrapper).2 = .ok := by rw [hp]
  clear hp hout h
  by_cases hcb : 272 < cb.length
  · obtain ⟨pool, hp, hh⟩ := pool_new cb 68 (by decide) (by decide) (by omega)
    unfold convertDdbToNormal at h2 ⊢
    simp only [hp] at h2 ⊢
    have hK : Well sound (ToNormal.new d.perfect pretty false asWrapper) := well_iff.2 ⟨rfl, rfl, by intro k; simp [ToNormal.new]⟩
    have hg := guard_scan (callbacks_keep F sound) turns F ⟨[], false⟩ ⟨.new reader rb, .new d.perfect pretty false asWrapper, pool⟩ hK
    rcases hs : scan turns F (callbacks F) ⟨[], false⟩ ⟨.new reader rb, .new d.perfect pretty false asWrapper, pool⟩ with ⟨st, _ | e | _ | _⟩
    · rw [hs] at hg
      simp only
      rcases scan_back (guard_sees (sees (F := F) (strict := ⟨Harmless (.new reader rb), rb.length⟩))) rfl turns ⟨hu, id, rfl⟩ hh hg with
        ⟨h1, h3, _⟩ | ⟨ws, v, x, b1, k1, k2, _, k3, _, kp, k4, k5⟩
      · simp only [rest_new] at h1
        exact ⟨[], _, _, rfl, h1, trivial, rfl, by rw [h3]; rfl⟩
      · simp only [Tail, ends, Bool.false_eq_true, if_false] at k5
        obtain ⟨ds, tail, j1, j2, jp, j3, _⟩ := k5
        simp only [rest_new] at k1
        refine ⟨(ws, v) :: ds, tail, _, by rw [k1, j1]; rfl, ⟨k2, k3, j2⟩, ⟨j1 ▸ kp, jp⟩, ?_, rfl⟩
        simp only [names, List.map_cons, List.map_nil] at k4 j3
        simp only [Docs.scan]
        rw [show v.scan guarded ⟨cb.length - 272, 68, 68⟩ [nameTop] (Cfg.st ⟨false, pretty, asWrapper⟩ d.w.out false 0 .field none none) = .done b1 from k4]
        exact j3
    · rw [hs] at h2
      obtain ⟨_, _, h3⟩ := report_err st.baton.lastError st.rj.currentIndex e
      simp only at h2
      rw [h3] at h2
      cases h2
    · rw [hs] at h2; cases h2
    · rw [hs] at h2; cases h2
  · exfalso
    unfold convertDdbToNormal U8Pool.new at h2
    have : U8Pool.descSize = 4 := rfl
    rw [if_neg (by decide)] at h2
    by_cases hc : cb = []
    · rw [if_pos hc] at h2
      cases h2
    · rw [if_neg hc] at h2
      dsimp only at h2
      rw [if_pos (by rw [this]; omega)] at h2
      cases h2

/-- If the documents are tidy, they are DynamoDB JSON, and the output is right. -/
theorem ok_typed {P : Prop} {R : Room} {C : Cfg} {out tail : Bytes} {ds : Docs} {b' : ToNormal} (hl : Docs.Loose P ds tail)
    (h : Docs.scan guarded R [nameTop] ds (C.st out false 0 .field none none) = .done b') (hk : ∀ x ∈ ds, x.2.Keys (· ≠ nameArray))
    (ht : ∀ x ∈ ds, TidyDoc C.asWrapper x.2) :
    ∃ D : DDocs, D.json.map (·.2.strip) = ds.map (·.2.strip) ∧ (∀ x ∈ D, x.2.Reads C.asWrapper) ∧
      ((∀ x ∈ D, x.2.members.Orderly) → b'.d.w.out = out ++ DDocs.plain C.pretty D) := by
  have hst : ∀ x ∈ ds.map (fun x => (x.1, x.2.strip)), ∃ y ∈ ds, x.2 = y.2.strip := by
    intro x hx
    obtain ⟨y, hy, rfl⟩ := List.mem_map.1 hx
    exact ⟨y, hy, rfl⟩
  have hg := docs_goes (Rs := looseRules) (C := C) R (ds.map fun x => (x.1, x.2.strip)) out none none (.inl rfl)
    (fun x hx => by obtain ⟨y, hy, e⟩ := hst x hx; rw [e]; exact docs_strip_meets hl y hy)
    (fun x hx => by obtain ⟨y, hy, e⟩ := hst x hx; rw [e]; exact (Val.keys_strip _).2 (hk y hy))
    (fun x hx => by obtain ⟨y, hy, e⟩ := hst x hx; rw [e]; exact tidyDoc_strip (ht y hy))
  have hss : (ds.map fun x => (x.1, x.2.strip)).map (fun x : Bytes × Val => x.2.strip) = ds.map (·.2.strip) := by
    rw [List.map_map]
    exact List.map_congr_left fun x _ => Val.strip_strip x.2
  rw [Unspaced.docs unspaced.guard R [nameTop] hss] at hg
  rw [show Docs.scan (guardH (Well sound) handler) R [nameTop] ds (C.st out false 0 .field none none) = .done b' from h] at hg
  obtain ⟨_, D, e, hr⟩ := hg
  rw [hss] at e
  refine ⟨D, e, hr, fun ho => ?_⟩
  have h' := h
  rw [← Unspaced.docs unspaced.guard R [nameTop] e] at h'
  have hfit := fit_docs (Modest.guard modest) _ _ _ _ h'
  have hkd : ∀ x ∈ D, x.2.json.Keys (· ≠ nameArray) := by
    intro x hx
    have h1 : x.2.json.strip ∈ ds.map (·.2.strip) := by
      rw [← e]
      exact List.mem_map.2 ⟨(x.1, x.2.json), List.mem_map.2 ⟨x, hx, rfl⟩, rfl⟩
    obtain ⟨y, hy, ey⟩ := List.mem_map.1 h1
    exact (Val.keys_strip _).1 (ey ▸ (Val.keys_strip _).2 (hk y hy))
  obtain ⟨ty', f', h2⟩ := docs_plain (C := C) R D out none none (by simp) hfit (fun x hx => names_of_keys_doc _ (hkd x hx)) ho hr
  rw [show Docs.scan guarded R [nameTop] D.json (C.st out false 0 .field none none) = _ from h'] at h2
  injection h2 with h2
  rw [h2]
  rfl

end ToNormal

/-! ## C80 -/

/-- **C80, partial.** Full statement: if `convert_ddb_to_normal` returns `Ok`, then the input is a stream of items in DynamoDB JSON, and the output is
these items as plain JSON. It is false, see the witnesses of C49, C51 and C65. Proved, for any input in any chunks, a reader and a writer that
may fail, a buffer of at least eight bytes (`Usable`) and any context buffer: after an `Ok` all of the input is a stream of loose
documents (see C65); if no key is `#array` and the documents are `TidyDoc` (see C51), then they are items in DynamoDB JSON, up to the space
between the tokens; and if in their lists a set is only the first item (`Orderly`, see C49), then they are what was written. -/
theorem C80_accepted_partial (turns F : Nat) (reader : Reader) (d : Dest) (rb cb : Bytes) (pretty unbuffered asWrapper : Bool)
    (hu : Usable F (.new reader rb)) (h : (convertDdbToNormal turns F reader d rb cb pretty unbuffered asWrapper).2 = .ok) :
    ∃ ds tail, reader.pending = Docs.text ds tail ∧ Docs.Loose (Harmless (.new reader rb)) ds tail ∧
      ((∀ x ∈ ds, x.2.Keys (· ≠ nameArray)) → (∀ x ∈ ds, TidyDoc asWrapper x.2) →
        ∃ D : DDocs, D.json.map (·.2.strip) = ds.map (·.2.strip) ∧ (∀ x ∈ D, x.2.Reads asWrapper) ∧
          ((∀ x ∈ D, x.2.members.Orderly) →
            (convertDdbToNormal turns F reader d rb cb pretty unbuffered asWrapper).1.d.w.out = d.w.out ++ DDocs.plain pretty D)) := by
  obtain ⟨ds, tail, b', h1, h2, _, h4, h5⟩ := ToNormal.ok_docs hu h
  refine ⟨ds, tail, h1, h2, fun hk ht => ?_⟩
  rw [h5]
  exact ToNormal.ok_typed h2 h4 hk ht

/-- **C80, partial**, if the input is known to be JSON: the documents are those of the input, in whatever chunks it came. -/
theorem C80_json_partial (turns F : Nat) (reader : Reader) (d : Dest) (rb cb : Bytes) (pretty unbuffered asWrapper : Bool) (ds : Docs) (tail : Bytes)
    (hu : Usable F (.new reader rb)) (hr : reader.pending = Docs.text ds tail) (hj : Docs.Json ds tail) (hk : ∀ x ∈ ds, x.2.Keys (· ≠ nameArray))
    (ht : ∀ x ∈ ds, TidyDoc asWrapper x.2) (h : (convertDdbToNormal turns F reader d rb cb pretty unbuffered asWrapper).2 = .ok) :
    ∃ D : DDocs, D.json.map (·.2.strip) = ds.map (·.2.strip) ∧ (∀ x ∈ D, x.2.Reads asWrapper) ∧
      ((∀ x ∈ D, x.2.members.Orderly) →
        (convertDdbToNormal turns F reader d rb cb pretty unbuffered asWrapper).1.d.w.out = d.w.out ++ DDocs.plain pretty D) := by
  obtain ⟨ds', tail', b', h1, h2, h3, h4, h5⟩ := ToNormal.ok_docs hu h
  have e := Docs.unique hj (.inr (ToNormal.no_atoms _ _ _ _ h4)) h2 h3 (hr.symm.trans h1)
  rw [show Docs.scan ToNormal.guarded _ _ ds' = _ from Unspaced.docs ToNormal.unspaced.guard _ _ e] at h4
  rw [h5]
  exact ToNormal.ok_typed (P := True) (Docs.Json.loose hj) h4 hk ht

/-- **C80, partial**, the converse of C49 in a sense: if the input is a stream of items in DynamoDB JSON, in any chunks, then an `Ok` means that
each of them was written as plain JSON. For the conditions `hn` and `ho` see C49. -/
theorem C80_output_partial (turns F : Nat) (reader : Reader) (d : Dest) (rb cb : Bytes) (pretty unbuffered asWrapper : Bool) (D : DDocs) (tail : Bytes)
    (hu : Usable F (.new reader rb)) (hr : reader.pending = Docs.text D.json tail) (hj : Docs.Json D.json tail)
    (hn : ∀ x ∈ D, x.2.members.Names (· ≠ nameArray)) (ho : ∀ x ∈ D, x.2.members.Orderly) (hw : ∀ x ∈ D, x.2.Reads asWrapper)
    (h : (convertDdbToNormal turns F reader d rb cb pretty unbuffered asWrapper).2 = .ok) :
    (convertDdbToNormal turns F reader d rb cb pretty unbuffered asWrapper).1.d.w.out = d.w.out ++ DDocs.plain pretty D := by
  obtain ⟨ds', tail', b', h1, h2, h3, h4, h5⟩ := ToNormal.ok_docs hu h
  have e := Docs.unique hj (.inr (ToNormal.no_atoms _ _ _ _ h4)) h2 h3 (hr.symm.trans h1)
  rw [show Docs.scan ToNormal.guarded _ _ ds' = _ from Unspaced.docs ToNormal.unspaced.guard _ _ e] at h4
  have hfit := fit_docs (Modest.guard ToNormal.modest) _ _ _ _ h4
  obtain ⟨ty', f', h6⟩ := ToNormal.docs_plain (C := ⟨false, pretty, asWrapper⟩) _ D d.w.out none none (by simp) hfit hn ho hw
  rw [show Docs.scan ToNormal.guarded _ _ D.json _ = _ from h4] at h6
  injection h6 with h6
  rw [h5, h6]
  rfl

/-- **C80, partial**: two runs on the same JSON, whatever it is, in different chunks, with buffers of different sizes and different writers, write
the same if both return `Ok`. -/
theorem C80_agree_partial (turns turns' F F' : Nat) (reader reader' : Reader) (d d' : Dest) (rb rb' cb cb' : Bytes) (pretty unbuffered unbuffered' asWrapper : Bool)
    (ds : Docs) (tail : Bytes) (hu : Usable F (.new reader rb)) (hu' : Usable F' (.new reader' rb')) (hr : reader.pending = Docs.text ds tail)
    (hr' : reader'.pending = Docs.text ds tail) (hd : d.w.out = d'.w.out) (hj : Docs.Json ds tail)
    (h : (convertDdbToNormal turns F reader d rb cb pretty unbuffered asWrapper).2 = .ok)
    (h' : (convertDdbToNormal turns' F' reader' d' rb' cb' pretty unbuffered' asWrapper).2 = .ok) :
    (convertDdbToNormal turns F reader d rb cb pretty unbuffered asWrapper).1.d.w.out =
      (convertDdbToNormal turns' F' reader' d' rb' cb' pretty unbuffered' asWrapper).1.d.w.out := by
  obtain ⟨ds1, tail1, b1, h1, h2, h3, h4, h5⟩ := ToNormal.ok_docs hu h
  obtain ⟨ds2, tail2, b2, k1, k2, k3, k4, k5⟩ := ToNormal.ok_docs hu' h'
  have e1 := Docs.unique hj (.inr (ToNormal.no_atoms _ _ _ _ h4)) h2 h3 (hr.symm.trans h1)
  have e2 := Docs.unique hj (.inr (ToNormal.no_atoms _ _ _ _ k4)) k2 k3 (hr'.symm.trans k1)
  rw [show Docs.scan ToNormal.guarded _ _ ds1 = _ from Unspaced.docs ToNormal.unspaced.guard _ _ e1] at h4
  rw [show Docs.scan ToNormal.guarded _ _ ds2 = _ from Unspaced.docs ToNormal.unspaced.guard _ _ e2, ← hd] at k4
  rw [h5, k5, Docs.scan_room _ _ _ _ ds _ _ _ h4 k4]

/-! ### Examples -/

/-- The items of C49, byte by byte. -/
def exBytes : Reader := (Docs.text exItems.json [32]).map fun c => .data c []

/-- Two documents, one of which is not tidy: `{"a":{}} {"b":{"S":"x"}}`. -/
def exUntidy : Docs := [([], .obj [] (.cons [] [97] [] [] (.obj [] .nil) [] .nil)),
  ([32], .obj [] (.cons [] [98] [] [] (.obj [] (.cons [] [83] [] [] (.atom [34, 120, 34]) [] .nil)) [] .nil))]

theorem exUntidy_json : Docs.Json exUntidy [] :=
  Docs.Meets.json (ds := exUntidy) (tail := []) (show Docs.Meets (rules wholeMode 20) exUntidy [] from
    ⟨spaces_nil, plainVal_ok _ (by decide +kernel), head_whole _ _ _, trivial, spaces_one, plainVal_ok _ (by decide +kernel), head_whole _ _ _, trivial, spaces_nil⟩)

/-- The hypotheses of `C80_accepted_partial` and `C80_output_partial`: the items byte by byte, with a buffer of ten bytes and a writer that would
fail later. Those of `C80_agree_partial`, with the same items at once. -/
example : Usable 400 (.new exBytes (List.replicate 10 0)) ∧ exBytes.pending = Docs.text exItems.json [32] ∧ Docs.Json exItems.json [32] ∧
    (∀ d ∈ exItems, d.2.members.Names (· ≠ nameArray)) ∧ (∀ d ∈ exItems, d.2.members.Orderly) ∧ (∀ d ∈ exItems, d.2.Reads true) ∧
    (∀ d ∈ exItems.json, d.2.Keys (· ≠ nameArray)) ∧
    (convertDdbToNormal 400 400 exBytes ⟨⟨[], List.replicate 100 none ++ [some ⟨0, 1⟩]⟩, []⟩ (List.replicate 10 0) (List.replicate 400 0) false false true).2 = .ok ∧
    Usable 200 (.new (whole (Docs.text exItems.json [32])) (List.replicate 120 0)) ∧
    (whole (Docs.text exItems.json [32])).pending = Docs.text exItems.json [32] ∧
    (convertDdbToNormal 140 200 (whole (Docs.text exItems.json [32])) ⟨⟨[], []⟩, []⟩ (List.replicate 120 0) (List.replicate 400 0) false false true).2 = .ok := by
  refine ⟨usable_new _ _ _ (by decide) (by decide +kernel), by decide +kernel, Docs.Meets.json exItems_meets, ?_, ?_, ?_, ?_, by decide +kernel,
    usable_new _ _ _ (by decide) (by decide +kernel), by decide +kernel, by decide +kernel⟩
  · intro d hd
    simp only [exItems, List.mem_cons, List.not_mem_nil, or_false] at hd
    rcases hd with rfl | rfl
    · simp [exDdb, DDoc.members, DMembers.Names, DVal.Names, DItems.Names, nameArray]
    · simp [DDoc.members, DMembers.Names, DVal.Names, nameArray]
  · intro d hd
    simp only [exItems, List.mem_cons, List.not_mem_nil, or_false] at hd
    rcases hd with rfl | rfl
    · simp [exDdb, DDoc.members, DMembers.Orderly, DVal.Orderly, DItems.Orderly, DVal.isSet]
    · simp [DDoc.members, DMembers.Orderly, DVal.Orderly]
  · intro d hd
    simp only [exItems, List.mem_cons, List.not_mem_nil, or_false] at hd
    rcases hd with rfl | rfl
    · exact fun _ => by decide
    · rfl
  · intro d hd
    simp only [exItems, exDdb, DDocs.json, List.map_cons, List.map_nil, List.mem_cons, List.not_mem_nil, or_false] at hd
    rcases hd with rfl | rfl <;>
      simp [DDoc.json, DMembers.json, DVal.json, DItems.json, elemsJson, Sp.wrap, Val.Keys, Members.Keys, Items.Keys, nameArray]

/-- The hypotheses of `C80_json_partial`, with the second document alone. -/
example : Usable 200 (.new (whole (Docs.text exUntidy.tail [])) (List.replicate 120 0)) ∧
    (whole (Docs.text exUntidy.tail [])).pending = Docs.text exUntidy.tail [] ∧ Docs.Json exUntidy.tail [] ∧
    (∀ x ∈ exUntidy.tail, x.2.Keys (· ≠ nameArray)) ∧ (∀ x ∈ exUntidy.tail, TidyDoc false x.2) ∧
    (convertDdbToNormal 140 200 (whole (Docs.text exUntidy.tail [])) ⟨⟨[], []⟩, []⟩ (List.replicate 120 0) (List.replicate 400 0) false false false).2 = .ok := by
  refine ⟨usable_new _ _ _ (by decide) (by decide +kernel), by decide +kernel, exUntidy_json.2.2.2, ?_, ?_, by decide +kernel⟩
  · intro x hx
    simp only [exUntidy, List.tail_cons, List.mem_cons, List.not_mem_nil, or_false] at hx
    subst hx
    simp [Val.Keys, Members.Keys, nameArray]
  · intro x hx
    simp only [exUntidy, List.tail_cons, List.mem_cons, List.not_mem_nil, or_false] at hx
    subst hx
    exact .inl ⟨by simp, ⟨trivial, trivial⟩⟩

/-- **C80 is false** without the condition on the documents: `{"a":{}} {"b":{"S":"x"}}` gives an `Ok`, and the output has no value for `a`. -/
theorem C80_untidy : Docs.text exUntidy [] = "{\"a\":{}} {\"b\":{\"S\":\"x\"}}".toUTF8.toList ∧ Docs.Json exUntidy [] ∧
    (¬ ∃ D : DDocs, D.json.map (·.2.strip) = exUntidy.map (·.2.strip)) ∧
    (convertDdbToNormal 140 200 (whole (Docs.text exUntidy [])) ⟨⟨[], []⟩, []⟩ (List.replicate 120 0) (List.replicate 400 0) false false false).2 = .ok ∧
    (convertDdbToNormal 140 200 (whole (Docs.text exUntidy [])) ⟨⟨[], []⟩, []⟩ (List.replicate 120 0) (List.replicate 400 0) false false
      false).1.d.w.out = "{\"a\":}\n{\"b\":\"x\"}\n".toUTF8.toList := by
  refine ⟨by decide +kernel, exUntidy_json, ?_, by decide +kernel, by decide +kernel⟩
  rintro ⟨D, e⟩
  rcases D with _ | ⟨⟨b, D⟩, Ds⟩
  · simp [DDocs.json, exUntidy] at e
  · simp only [DDocs.json, exUntidy, List.map_cons, List.cons.injEq] at e
    have e := e.1
    rcases D with ⟨w, _ | ⟨b', k, m, m', v, a, more⟩⟩ | ⟨sp, w, ms⟩
    · simp [DDoc.json, DMembers.json, Val.strip, Members.strip] at e
    · simp only [DDoc.json, DMembers.json, Val.strip, Members.strip, Val.obj.injEq, Members.cons.injEq, true_and] at e
      obtain ⟨k', v', e'⟩ := json_one v
      rw [e'] at e
      simp [ToNormal.one] at e
    · simp [DDoc.json, Sp.wrap, Val.strip, Members.strip] at e

end Verif.Ddb
