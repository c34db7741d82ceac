import Verif.Scan.Said
import Verif.Ddb.ToNormal
import Verif.Ddb.ToDdb
import Verif.Ddb.Message

/-!
# What is in the errors that the converters store
-/

namespace Verif.Ddb

open Verif.RJiter (RJ Err Res Reader Writer)
open Verif.Scan

/-- A message or a context: at most 110 bytes, no control characters. -/
def Phrase (m : String) : Prop := Clear (utf8 m) ∧ (utf8 m).length ≤ 110

instance (m : String) : Decidable (Phrase m) := inferInstanceAs (Decidable (_ ∧ _))

/-- A stored error. -/
def Proper : ConvErr → Prop
  | .rjiter _ c => Phrase c
  | .io _ c => Phrase c
  | .parse c none => Phrase c
  | .parse c (some u) => Phrase c ∧ Clear u ∧ u.length ≤ 32
  | .scan _ => False

theorem own_short : ∀ m ∈ ownMessages, Phrase m := by
  decide +kernel

namespace ToNormal.Say

/-- The stored error is one of the converter's, and the key has no control characters. -/
def Inv (b : ToNormal) : Prop := (∀ e, b.lastError = some e → Proper e) ∧ ∀ k, b.field = some k → Clear k

/-- A part of an action keeps `Inv`, and its message is short. -/
def Told (x : Step) : Prop := Inv x.1 ∧ ∀ m, x.2 = some m → Phrase m

theorem told_ok {b : ToNormal} (h : Inv b) : Told (b, none) := ⟨h, by simp⟩

theorem told_error {b : ToNormal} (h : Inv b) {m : String} (hm : Phrase m) : Told (b, some m) :=
  ⟨h, by intro m' h'; injection h' with h'; exact h' ▸ hm⟩

theorem told_bind {x : Step} {k : ToNormal → Step} (hx : Told x) (hk : ∀ b, Inv b → Told (k b)) : Told (x.bind k) := by
  rcases x with ⟨b, _ | m⟩
  · exact hk b hx.1
  · exact hx

theorem told_put {b : ToNormal} (h : Inv b) (bs : Bytes) {c : String} (hc : Phrase c) : Told (b.put bs c) := by
  unfold put
  rcases b.d.write b.unbuffered bs with ⟨d, _ | k⟩
  · exact told_ok h
  · refine told_error (b := { b with d := d, lastError := some (.io k c) }) ⟨?_, h.2⟩ (by decide +kernel : Phrase "Write failed")
    intro e he
    simp only [Option.some.injEq] at he
    subst he
    exact hc

theorem told_set {f : ToNormal → ToNormal} (hf : ∀ b, (f b).lastError = b.lastError ∧ (f b).field = b.field) {b : ToNormal} (h : Inv b) :
    Told (set f b) := told_ok ⟨by rw [(hf b).1]; exact h.1, by rw [(hf b).2]; exact h.2⟩

theorem told_newline {b : ToNormal} (h : Inv b) : Told b.newline := by
  unfold newline; split
  · exact told_put h _ (by decide +kernel)
  · exact told_ok h

theorem told_writeComma {b : ToNormal} (h : Inv b) : Told b.writeComma := by
  unfold writeComma; split
  · exact told_bind (told_put h _ (by decide +kernel)) fun b h => told_bind (told_newline h) fun b h => told_ok h
  · exact told_ok h

theorem told_indentLoop : ∀ (n : Nat) {b : ToNormal}, Inv b → Told (indentLoop n b)
  | 0, _, h => told_ok h
  | n + 1, _, h => told_bind (told_put h _ (by decide +kernel)) fun _ h => told_indentLoop n h

theorem told_indent {b : ToNormal} (h : Inv b) : Told b.indent := by
  unfold indent; split
  · exact told_indentLoop _ h
  · exact told_ok h

theorem told_dec {b : ToNormal} (h : Inv b) : Told b.dec := by
  unfold dec; split <;> exact told_ok h

theorem told_quote (q : Bool) {c : String} (hc : Phrase c) {b : ToNormal} (h : Inv b) : Told (quote q c b) := by
  unfold quote; split
  · exact told_put h _ hc
  · exact told_ok h

theorem told_flushLong {b : ToNormal} (h : Inv b) : Told b.flushLong := by
  unfold flushLong; split
  · rcases b.d.flush with ⟨d, _ | k⟩
    · exact told_ok h
    · refine told_error (b := { b with d := d, lastError := some (.io k "flushing after write_long_bytes") }) ⟨?_, h.2⟩
        (by decide +kernel : Phrase "Failed to flush writer")
      intro e he
      simp only [Option.some.injEq] at he
      subst he
      show Phrase _
      decide +kernel
  · exact told_ok h

/-- A chain of parts. -/
macro "told" : tactic => `(tactic| (
  repeat' first
    | with_reducible assumption
    | (refine told_bind ?_ (fun b h => ?_))
    | (refine told_put ?_ _ (by decide +kernel))
    | (refine told_set ?_ ?_)
    | exact fun b => ⟨rfl, rfl⟩
    | (refine told_newline ?_)
    | (refine told_writeComma ?_)
    | (refine told_indent ?_)
    | (refine told_dec ?_)
    | (refine told_flushLong ?_)
    | (refine told_quote _ (by decide +kernel) ?_)))

theorem told_rootObjectBegin {b : ToNormal} (h : Inv b) : Told b.rootObjectBegin := by unfold rootObjectBegin; told

theorem told_fieldKey {b : ToNormal} (h : Inv b) : Told b.fieldKey := by
  unfold fieldKey; split
  · exact told_error h (by decide +kernel)
  · told

theorem told_setBegin (t : TypeDesc) {c : String} (hc : Phrase c) {b : ToNormal} (h : Inv b) : Told (setBegin t c b) := by
  unfold setBegin
  exact told_bind (told_put h _ hc) fun b h => told_set (fun b => ⟨rfl, rfl⟩) h

theorem told_listBegin {b : ToNormal} (h : Inv b) : Told b.listBegin := by unfold listBegin; told
theorem told_mapBegin {b : ToNormal} (h : Inv b) : Told b.mapBegin := by unfold mapBegin; told
theorem told_setEnd {b : ToNormal} (h : Inv b) : Told b.setEnd := by unfold setEnd; told
theorem told_mapEnd {b : ToNormal} (h : Inv b) : Told b.mapEnd := by unfold mapEnd; told
theorem told_mapEndInArray {b : ToNormal} (h : Inv b) : Told b.mapEndInArray :=
  told_bind (told_mapEnd h) fun _ h => told_set (fun _ => ⟨rfl, rfl⟩) h
theorem told_rootObjectEnd {b : ToNormal} (h : Inv b) : Told b.rootObjectEnd := by unfold rootObjectEnd; told
theorem told_goto (ph : Phase) {b : ToNormal} (h : Inv b) : Told (goto ph b) := told_set (fun _ => ⟨rfl, rfl⟩) h
theorem told_listEnd {b : ToNormal} (h : Inv b) : Told b.listEnd := by
  unfold listEnd; split
  · exact told_error h (by decide +kernel)
  · told

/-- An action keeps `Inv`, and its message is short. -/
def Acts (x : (RJ × ToNormal) × Acted) : Prop := Inv x.1.2 ∧ ∀ m, x.2 = .op (.error m) → Phrase m

theorem acts_error {s : RJ} {b : ToNormal} (h : Inv b) {m : String} (hm : Phrase m) : Acts ((s, b), .op (.error m)) :=
  ⟨h, by intro m' h'; simp only [Acted.op.injEq, StreamOp.error.injEq] at h'; exact h' ▸ hm⟩

theorem acts_run {x : Step} {s : RJ} {k : Action ToNormal} (hx : Told x) (hk : ∀ b, Inv b → Acts (k s b)) : Acts (x.run s k) := by
  rcases x with ⟨b, _ | m⟩
  · exact hk b hx.1
  · exact acts_error hx.1 (hx.2 m rfl)

/-- An answer that is no error. -/
def Calm (op : StreamOp) : Prop := ∀ m, op ≠ .error m

theorem acts_act {f : ToNormal → Step} {op : StreamOp} (hop : Calm op) {s : RJ} {b : ToNormal} (hf : Told (f b)) : Acts (act f op s b) :=
  acts_run hf fun _ h => ⟨h, by intro m hm; simp only [Acted.op.injEq] at hm; exact absurd hm (hop m)⟩

theorem calm_none : Calm .none := fun _ => nofun
theorem calm_consumed : Calm .valueIsConsumed := fun _ => nofun

theorem acts_panic {s : RJ} {b : ToNormal} (h : Inv b) : Acts ((s, b), .panic) := ⟨h, by simp⟩
theorem acts_diverge {s : RJ} {b : ToNormal} (h : Inv b) : Acts ((s, b), .diverge) := ⟨h, by simp⟩

theorem inv_storeRj {b : ToNormal} (h : Inv b) (e : Err) {c : String} (hc : Phrase c) : Inv (b.storeRj e c) :=
  ⟨by intro e' he; simp only [storeRj, Option.some.injEq] at he; subst he; exact hc, h.2⟩

theorem acts_settle {f : ToNormal → ToNormal} (hf : ∀ b, (f b).lastError = b.lastError ∧ (f b).field = b.field) {x : (RJ × ToNormal) × Acted}
    (h : Acts x) : Acts (settle f x) := by
  rcases x with ⟨⟨s, b⟩, o | _ | _⟩
  · exact ⟨⟨by show ∀ e, (f b).lastError = some e → _; rw [(hf b).1]; exact h.1.1, by show ∀ e, (f b).field = some e → _; rw [(hf b).2]; exact h.1.2⟩,
      h.2⟩
  · exact h
  · exact h

theorem acts_writeString (F : Nat) (q : Bool) {pc wc : String} (hp : Phrase pc) (hw : Phrase wc) (s : RJ) {b : ToNormal} (h : Inv b) :
    Acts (writeString F q pc wc s b) := by
  unfold writeString
  rcases s.peek F with ⟨s1, c | e | _ | _⟩
  · simp only
    split
    · exact acts_error h (by decide +kernel)
    · refine acts_run (by told) fun b h => ?_
      rcases s1.writeLongBytes F b.d.w with ⟨⟨s2, w⟩, _ | e | _ | _⟩
      · refine acts_act calm_consumed ?_
        have h' : Inv { b with d := { b.d with w := w } } := h
        told
      · exact acts_error (inv_storeRj (b := { b with d := { b.d with w := w } }) h e hw) (by decide +kernel)
      · exact acts_panic (b := { b with d := { b.d with w := w } }) h
      · exact acts_diverge (b := { b with d := { b.d with w := w } }) h
  · exact acts_error (inv_storeRj h e hp) (by decide +kernel)
  · exact acts_panic h
  · exact acts_diverge h

theorem acts_writeBool (F : Nat) {o : Byte → Bytes × Option String} (ho : ∀ c m, (o c).2 = some m → Phrase m) {name : String} (hn : Phrase name)
    (s : RJ) {b : ToNormal} (h : Inv b) : Acts (writeBool F o name s b) := by
  unfold writeBool
  rcases s.peek F with ⟨s1, c | e | _ | _⟩
  · simp only
    rcases hoc : o c with ⟨bytes, _ | m⟩
    · refine acts_run (by told) fun b h => ?_
      rcases s1.knownBool F c with ⟨s2, v | e | _ | _⟩
      · exact acts_act calm_consumed (told_bind (told_put h _ hn) fun b h => told_set (fun b => ⟨rfl, rfl⟩) h)
      · exact acts_error (inv_storeRj h e hn) (by decide +kernel)
      · exact acts_panic h
      · exact acts_diverge h
    · exact acts_error h (ho c m (by rw [hoc]))
  · exact acts_error (inv_storeRj h e hn) (by decide +kernel)
  · exact acts_panic h
  · exact acts_diverge h

theorem boolOutput_short (c : Byte) (m : String) (h : (boolOutput c).2 = some m) : Phrase m := by
  revert h; unfold boolOutput
  split
  · simp
  · split
    · simp
    · intro h; injection h with h; subst h; decide +kernel

theorem nullOutput_short (c : Byte) (m : String) (h : (nullOutput c).2 = some m) : Phrase m := by
  revert h; unfold nullOutput
  split
  · simp
  · intro h; injection h with h; subst h; decide +kernel

theorem acts_onTypeKey (F : Nat) (s : RJ) {b : ToNormal} (h : Inv b) : Acts (onTypeKey F s b) := by
  unfold onTypeKey
  split
  · exact acts_error h (by decide +kernel)
  · rename_i key hk
    split
    · refine acts_settle ?_ (acts_writeString F _ ?_ ?_ s h) <;> first | exact fun _ => ⟨rfl, rfl⟩ | decide +kernel
    split
    · refine acts_settle ?_ (acts_writeString F _ ?_ ?_ s h) <;> first | exact fun _ => ⟨rfl, rfl⟩ | decide +kernel
    split
    · refine acts_settle ?_ (acts_writeBool F boolOutput_short ?_ s h) <;> first | exact fun _ => ⟨rfl, rfl⟩ | decide +kernel
    split
    · refine acts_settle ?_ (acts_writeBool F nullOutput_short ?_ s h) <;> first | exact fun _ => ⟨rfl, rfl⟩ | decide +kernel
    split
    · exact acts_act calm_none (told_setBegin _ (by decide +kernel) h)
    split
    · exact acts_act calm_none (told_setBegin _ (by decide +kernel) h)
    split
    · exact acts_act calm_none (told_listBegin h)
    split
    · exact acts_act calm_none (told_mapBegin h)
    · refine acts_error (b := b.storeParse "Invalid DynamoDB JSON format: unknown type descriptor" (some key)) ⟨?_, h.2⟩
        (by decide +kernel : Phrase "Unknown type descriptor")
      intro e he
      simp only [storeParse, Option.map_some, Option.some.injEq] at he
      subst he
      refine ⟨by decide +kernel, fun c hc => h.2 key hk c (List.mem_of_mem_take hc), ?_⟩
      rw [List.length_take]; omega

theorem acts_onError (s : RJ) {b : ToNormal} (h : Inv b) : Acts (onError s b) := acts_error h (by decide +kernel)

/-- What a matcher gives. -/
def Found (x : ToNormal × Option (Action ToNormal)) : Prop := Inv x.1 ∧ ∀ a, x.2 = some a → ∀ s, Acts (a s x.1)

theorem found_none {b : ToNormal} (h : Inv b) : Found (b, none) := ⟨h, by simp⟩

theorem found_some {b : ToNormal} {a : Action ToNormal} (h : Inv b) (ha : ∀ s, Acts (a s b)) : Found (b, some a) :=
  ⟨h, by intro a' h' s; injection h' with h'; exact h' ▸ ha s⟩

theorem found_reject {b : ToNormal} (h : Inv b) {c : String} (hc : Phrase c) : Found (reject c b) := by
  have : Inv (b.storeParse c none) :=
    ⟨by intro e he; simp only [storeParse, Option.map_none, Option.some.injEq] at he; subst he; exact hc, h.2⟩
  exact found_some this fun s => acts_onError s this

theorem inv_field {b : ToNormal} (h : Inv b) {key : Bytes} (hk : Clear key) : Inv { b with field := some key } :=
  ⟨h.1, by intro k hk'; simp only [Option.some.injEq] at hk'; exact hk' ▸ hk⟩

theorem found_find (F : Nat) (p : Pseudo) (c : Ctx) {b : ToNormal} (hc : ∀ n ∈ c.path, Clear n) (h : Inv b) : Found (find F p c b) := by
  cases p with
  | object =>
    simp only [find, findObject]
    repeat' split
    all_goals first
      | exact found_none h
      | exact found_reject h (by decide +kernel)
      | exact found_some h fun s => acts_act calm_none (told_rootObjectBegin h)
  | none =>
    simp only [find, findKey]
    split
    · exact found_none h
    · rename_i key above hp
      have hk : Inv { b with field := some key } := inv_field h (hc key (by rw [hp]; exact List.mem_cons_self))
      repeat' split
      all_goals first
        | exact found_none h
        | exact found_reject h (by decide +kernel)
        | exact found_some hk fun s => acts_act calm_none (told_fieldKey hk)
        | exact found_some hk fun s => acts_onTypeKey F s hk
  | array =>
    simp only [find, findArray]
    repeat' split
    all_goals first
      | exact found_none h
      | exact found_reject h (by decide +kernel)
      | exact found_none (b := { b with type := _ }) h
  | atom =>
    simp only [find, findAtom]
    split
    · exact found_reject h (by decide +kernel)
    split
    · split
      · exact found_some h fun s => acts_writeString F _ (by decide +kernel) (by decide +kernel) s h
      · exact found_some h fun s => acts_writeString F _ (by decide +kernel) (by decide +kernel) s h
    · exact found_reject h (by decide +kernel)

theorem found_findEnd (p : Pseudo) (c : Ctx) {b : ToNormal} (h : Inv b) :
    Inv (findEnd p c b).1 ∧ ∀ a, (findEnd p c b).2 = some a → Told (a (findEnd p c b).1) := by
  cases p with
  | object =>
    refine ⟨h, ?_⟩
    simp only [findEnd]
    intro a ha
    split at ha
    · injection ha with ha; subst ha; exact told_rootObjectEnd h
    · cases ha
  | array =>
    refine ⟨h, ?_⟩
    simp only [findEnd]
    intro a ha
    split at ha
    · injection ha with ha; subst ha; exact told_listEnd h
    split at ha
    · injection ha with ha; subst ha; exact told_setEnd h
    · cases ha
  | atom => exact ⟨h, by simp [findEnd]⟩
  | none =>
    refine ⟨h, ?_⟩
    simp only [findEnd, findEndKey]
    intro a ha
    repeat' split at ha
    all_goals try (cases ha; done)
    all_goals injection ha with ha; subst ha
    all_goals first
      | exact told_goto _ h
      | (split <;> first | exact told_mapEndInArray h | exact told_mapEnd h)
      | exact told_mapEndInArray h
      | exact told_mapEnd h

theorem says (F : Nat) : Speaks (callbacks F) Inv Phrase where
  find p c _ hc h := found_find F p c hc h
  findEnd p c _ _ h := found_findEnd p c h

end ToNormal.Say

namespace ToDdb.Say

/-- The stored error is one of the converter's. -/
def Inv (b : ToDdb) : Prop := ∀ e, b.lastError = some e → Proper e

/-- A part of an action keeps `Inv`, and its message is short. -/
def Told (x : Step) : Prop := Inv x.1 ∧ ∀ m, x.2 = some m → Phrase m

theorem told_ok {b : ToDdb} (h : Inv b) : Told (b, none) := ⟨h, by simp⟩

theorem told_error {b : ToDdb} (h : Inv b) {m : String} (hm : Phrase m) : Told (b, some m) :=
  ⟨h, by intro m' h'; injection h' with h'; exact h' ▸ hm⟩

theorem told_bind {x : Step} {k : ToDdb → Step} (hx : Told x) (hk : ∀ b, Inv b → Told (k b)) : Told (x.bind k) := by
  rcases x with ⟨b, _ | m⟩
  · exact hk b hx.1
  · exact hx

theorem told_put {b : ToDdb} (h : Inv b) (bs : Bytes) {c : String} (hc : Phrase c) : Told (b.put bs c) := by
  unfold put
  rcases b.d.write b.unbuffered bs with ⟨d, _ | k⟩
  · exact told_ok h
  · refine told_error ?_ (by decide +kernel : Phrase "Write failed")
    intro e he
    simp only [Option.some.injEq] at he
    subst he
    exact hc

theorem told_setComma (c : Bool) {b : ToDdb} (h : Inv b) : Told (setComma c b) := told_ok h

theorem told_inc {b : ToDdb} (h : Inv b) : Told b.inc := told_ok h

theorem told_newline {b : ToDdb} (h : Inv b) : Told b.newline := by
  unfold newline; split
  · exact told_put h _ (by decide +kernel)
  · exact told_ok h

theorem told_writeComma {b : ToDdb} (h : Inv b) : Told b.writeComma := by
  unfold writeComma; split
  · exact told_bind (told_put h _ (by decide +kernel)) fun b h => told_bind (told_newline h) fun b h => told_ok h
  · exact told_ok h

theorem told_indentLoop : ∀ (n : Nat) {b : ToDdb}, Inv b → Told (indentLoop n b)
  | 0, _, h => told_ok h
  | n + 1, _, h => told_bind (told_put h _ (by decide +kernel)) fun _ h => told_indentLoop n h

theorem told_indent {b : ToDdb} (h : Inv b) : Told b.indent := by
  unfold indent; split
  · exact told_indentLoop _ h
  · exact told_ok h

theorem told_dec {b : ToDdb} (h : Inv b) : Told b.dec := by
  unfold dec; split <;> exact told_ok h

theorem told_flushLong {b : ToDdb} (h : Inv b) : Told b.flushLong := by
  unfold flushLong; split
  · rcases b.d.flush with ⟨d, _ | k⟩
    · exact told_ok h
    · refine told_error ?_ (by decide +kernel : Phrase "Failed to flush writer")
      intro e he
      simp only [Option.some.injEq] at he
      subst he
      show Phrase _
      decide +kernel
  · exact told_ok h

/-- A chain of parts. -/
macro "told'" : tactic => `(tactic| (
  repeat' first
    | with_reducible assumption
    | (refine told_bind ?_ (fun b h => ?_))
    | (refine told_put ?_ _ (by decide +kernel))
    | (refine told_setComma _ ?_)
    | (refine told_newline ?_)
    | (refine told_writeComma ?_)
    | (refine told_indent ?_)
    | (refine told_inc ?_)
    | (refine told_dec ?_)
    | (refine told_flushLong ?_)))

theorem told_closeValue {b : ToDdb} (h : Inv b) : Told b.closeValue := by unfold closeValue; told'
theorem told_rootObjectBegin {b : ToDdb} (h : Inv b) : Told b.rootObjectBegin := by
  unfold rootObjectBegin; split
  · told'
  · told'
theorem told_arrayBegin {b : ToDdb} (h : Inv b) : Told b.arrayBegin := by unfold arrayBegin; told'
theorem told_rootArray {b : ToDdb} (h : Inv b) : Told b.rootArray := by
  unfold rootArray; told'
theorem told_fieldKey {b : ToDdb} (h : Inv b) : Told b.fieldKey := by
  unfold fieldKey; split
  · exact told_error h (by decide +kernel)
  · told'
theorem told_elementBegin {b : ToDdb} (h : Inv b) : Told b.elementBegin := by unfold elementBegin; told'
theorem told_objectBegin {b : ToDdb} (h : Inv b) : Told b.objectBegin := by unfold objectBegin; told'
theorem told_rootObjectEnd {b : ToDdb} (h : Inv b) : Told b.rootObjectEnd := by
  unfold rootObjectEnd; told'
  split
  · told'
  · told'
theorem told_objectEnd {b : ToDdb} (h : Inv b) : Told b.objectEnd := by unfold objectEnd; told'
theorem told_arrayEnd {b : ToDdb} (h : Inv b) : Told b.arrayEnd := by unfold arrayEnd; told'
theorem told_rootArrayEnd {b : ToDdb} (h : Inv b) : Told b.rootArrayEnd :=
  told_bind (told_arrayEnd h) fun _ h => told_put h _ (by decide +kernel)

/-- An action keeps `Inv`, and its message is short. -/
def Acts (x : (RJ × ToDdb) × Acted) : Prop := Inv x.1.2 ∧ ∀ m, x.2 = .op (.error m) → Phrase m

theorem acts_error {s : RJ} {b : ToDdb} (h : Inv b) {m : String} (hm : Phrase m) : Acts ((s, b), .op (.error m)) :=
  ⟨h, by intro m' h'; simp only [Acted.op.injEq, StreamOp.error.injEq] at h'; exact h' ▸ hm⟩

theorem acts_run {x : Step} {s : RJ} {k : Action ToDdb} (hx : Told x) (hk : ∀ b, Inv b → Acts (k s b)) : Acts (x.run s k) := by
  rcases x with ⟨b, _ | m⟩
  · exact hk b hx.1
  · exact acts_error hx.1 (hx.2 m rfl)

theorem acts_act {f : ToDdb → Step} {op : StreamOp} (hop : ∀ m, op = .error m → Phrase m) {s : RJ} {b : ToDdb} (hf : Told (f b)) :
    Acts (act f op s b) :=
  acts_run hf fun _ h => ⟨h, by intro m hm; simp only [Acted.op.injEq] at hm; exact hop m hm⟩

theorem calm_none : ∀ m, StreamOp.none = .error m → Phrase m := fun _ => nofun
theorem calm_consumed : ∀ m, StreamOp.valueIsConsumed = .error m → Phrase m := fun _ => nofun

theorem acts_panic {s : RJ} {b : ToDdb} (h : Inv b) : Acts ((s, b), .panic) := ⟨h, by simp⟩
theorem acts_diverge {s : RJ} {b : ToDdb} (h : Inv b) : Acts ((s, b), .diverge) := ⟨h, by simp⟩

theorem acts_ignoring {α : Type} {b : ToDdb} {k : Action ToDdb} (h : Inv b) (hk : ∀ s, Acts (k s b)) (x : RJ × Res α) :
    Acts (ignoring b k x) := by
  rcases x with ⟨s, v | e | _ | _⟩
  · exact hk s
  · exact hk s
  · exact acts_panic h
  · exact acts_diverge h

theorem acts_onString (F : Nat) (s : RJ) {b : ToDdb} (h : Inv b) : Acts (onString F s b) := by
  unfold onString
  refine acts_run (by told') fun b h => ?_
  rcases s.writeLongBytes F b.d.w with ⟨⟨s2, w⟩, _ | e | _ | _⟩
  · refine acts_act calm_consumed ?_
    have h' : Inv { b with d := { b.d with w := w } } := h
    told'
  · exact acts_error (b := { b with d := { b.d with w := w } }) h (by decide +kernel)
  · exact acts_panic (b := { b with d := { b.d with w := w } }) h
  · exact acts_diverge (b := { b with d := { b.d with w := w } }) h

theorem acts_onBool (F : Nat) (s : RJ) {b : ToDdb} (h : Inv b) : Acts (onBool F s b) := by
  unfold onBool
  rcases s.peek F with ⟨s1, c | e | _ | _⟩
  · refine acts_run (by told') fun b h => ?_
    split
    · exact acts_ignoring h (fun s => acts_act calm_consumed (told_bind (told_put h _ (by decide +kernel)) fun _ h => told_closeValue h)) _
    split
    · exact acts_ignoring h (fun s => acts_act calm_consumed (told_bind (told_put h _ (by decide +kernel)) fun _ h => told_closeValue h)) _
    · exact acts_error h (by decide +kernel)
  · exact acts_error h (by decide +kernel)
  · exact acts_panic h
  · exact acts_diverge h

theorem acts_onNull (F : Nat) (s : RJ) {b : ToDdb} (h : Inv b) : Acts (onNull F s b) := by
  unfold onNull
  rcases s.peek F with ⟨s1, c | e | _ | _⟩
  · simp only
    split
    · exact acts_error h (by decide +kernel)
    · refine acts_ignoring h (fun s => acts_act calm_consumed ?_) _
      told'
  · exact acts_error h (by decide +kernel)
  · exact acts_panic h
  · exact acts_diverge h

theorem acts_onNumber (F : Nat) (s : RJ) {b : ToDdb} (h : Inv b) : Acts (onNumber F s b) := by
  unfold onNumber
  rcases s.nextNumberBytes F with ⟨s1, c | e | _ | _⟩
  · refine acts_act calm_consumed ?_
    told'
  · exact acts_error h (by decide +kernel)
  · exact acts_panic h
  · exact acts_diverge h

theorem acts_onAtom (F : Nat) (s : RJ) {b : ToDdb} (h : Inv b) : Acts (onAtom F s b) := by
  unfold onAtom
  refine acts_run (by told') fun b h => ?_
  rcases s.peek F with ⟨s1, c | e | _ | _⟩
  · simp only
    split
    · exact acts_onString F _ h
    split
    · exact acts_onBool F _ h
    split
    · exact acts_onNull F _ h
    · exact acts_onNumber F _ h
  · exact acts_error h (by decide +kernel)
  · exact acts_panic h
  · exact acts_diverge h

theorem acts_onRootLiteral (F : Nat) (s : RJ) {b : ToDdb} (h : Inv b) : Acts (onRootLiteral F s b) := by
  unfold onRootLiteral
  refine acts_run (by told') fun b h => ?_
  have := acts_onAtom F s h
  revert this
  rcases onAtom F s b with ⟨⟨s', b2⟩, o | _ | _⟩
  · intro h1
    have h2 : Inv b2 := h1.1
    refine acts_act (fun m hm => h1.2 m (by rw [hm])) ?_
    told'
  · exact id
  · exact id

theorem acts_onElementAtom (F : Nat) (s : RJ) {b : ToDdb} (h : Inv b) : Acts (onElementAtom F s b) :=
  acts_run (told_elementBegin h) fun _ h => acts_onAtom F s h

/-- What a matcher gives. -/
def Found (x : ToDdb × Option (Action ToDdb)) : Prop := Inv x.1 ∧ ∀ a, x.2 = some a → ∀ s, Acts (a s x.1)

theorem found_none {b : ToDdb} (h : Inv b) : Found (b, none) := ⟨h, by simp⟩

theorem found_some {b : ToDdb} {a : Action ToDdb} (h : Inv b) (ha : ∀ s, Acts (a s b)) : Found (b, some a) :=
  ⟨h, by intro a' h' s; injection h' with h'; exact h' ▸ ha s⟩

theorem found_find (F : Nat) (p : Pseudo) (c : Ctx) {b : ToDdb} (h : Inv b) : Found (find F p c b) := by
  have ha : ∀ {f : ToDdb → Step}, (∀ {b}, Inv b → Told (f b)) → Found (b, some (act f .none)) := fun hf =>
    found_some h fun s => acts_act calm_none (hf h)
  unfold find
  split
  · cases p
    · exact ha told_arrayBegin
    · exact found_none h
    · exact found_some h fun s => acts_onAtom F s h
    · exact found_none h
  · rename_i parent r _
    split
    · cases p
      · exact ha told_rootArray
      · exact ha told_rootObjectBegin
      · exact found_some h fun s => acts_onRootLiteral F s h
      · exact found_none h
    · cases p
      · simp only
        split
        · exact ha fun h => told_bind (told_elementBegin h) fun _ h => told_arrayBegin h
        · exact ha told_arrayBegin
      · simp only
        split
        · exact ha fun h => told_bind (told_elementBegin h) fun _ h => told_objectBegin h
        · exact ha told_objectBegin
      · refine found_some h fun s => ?_
        split
        · exact acts_onElementAtom F s h
        · exact acts_onAtom F s h
      · have h' : Inv { b with field := some parent } := h
        exact found_some h' fun s => acts_act calm_none (told_fieldKey h')

theorem found_findEnd (p : Pseudo) (c : Ctx) {b : ToDdb} (h : Inv b) :
    Inv (findEnd p c b).1 ∧ ∀ a, (findEnd p c b).2 = some a → Told (a (findEnd p c b).1) := by
  have key : ∀ x : Option (EndAction ToDdb), (∀ a, x = some a → Told (a b)) → Inv ((b, x) : ToDdb × Option (EndAction ToDdb)).1 ∧
      ∀ a, ((b, x) : ToDdb × Option (EndAction ToDdb)).2 = some a → Told (a ((b, x) : ToDdb × Option (EndAction ToDdb)).1) := fun x hx => ⟨h, hx⟩
  have hs : ∀ {f : EndAction ToDdb}, (∀ {b}, Inv b → Told (f b)) → ∀ a, some f = some a → Told (a b) := by
    intro f hf a e; injection e with e; exact e ▸ hf h
  unfold findEnd
  split
  · exact key _ (by simp)
  · split
    · cases p
      · exact key _ (hs told_rootArrayEnd)
      · exact key _ (hs told_rootObjectEnd)
      · exact key _ (by simp)
      · exact key _ (by simp)
    · cases p
      · exact key _ (hs told_arrayEnd)
      · exact key _ (hs told_objectEnd)
      · simp only
        split
        · exact key _ (hs fun h => told_ok h)
        · exact key _ (by simp)
      · exact key _ (by simp)

theorem says (F : Nat) : Speaks (callbacks F) Inv Phrase where
  find p c _ _ h := found_find F p c h
  findEnd p c _ _ h := found_findEnd p c h

end ToDdb.Say

end Verif.Ddb
