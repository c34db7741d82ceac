import Verif.Ddb.ToDdb
import Verif.Scan.IdtFail

/-!
# Property C45: what `convert_normal_to_ddb` does when a write or a flush fails

For any input.
-/

namespace Verif.Ddb

open Verif.U8Pool (Pool)
open Verif.RJiter
open Verif.Scan (Action EndAction Acted Pseudo Ctx nameTop nameArray scan Keeps scan_keeps Wrote FailedWith writeAll_cases
  handleLong_wrote)

/-- From `d` to `d'` by calls of `write_all` and `flush`; the failed ones failed with the error kinds `ks`. -/
def Kinds (d d' : Dest) (ks : List Nat) : Prop :=
  ∃ ws fs, d.w.plan = ws ++ d'.w.plan ∧ d.flushes = fs ++ d'.flushes ∧ d.w.out <+: d'.w.out ∧
    ∀ k, k ∈ ks ↔ (∃ n, some ⟨k, n⟩ ∈ ws) ∨ some k ∈ fs

theorem Kinds.refl (d : Dest) : Kinds d d [] := ⟨[], [], rfl, rfl, List.prefix_rfl, by simp⟩

theorem Kinds.trans {d d' d'' : Dest} {ks ks' : List Nat} (h : Kinds d d' ks) (h' : Kinds d' d'' ks') : Kinds d d'' (ks ++ ks') := by
  obtain ⟨ws, fs, h1, h2, h3, h4⟩ := h
  obtain ⟨ws', fs', h1', h2', h3', h4'⟩ := h'
  refine ⟨ws ++ ws', fs ++ fs', by rw [h1, h1', List.append_assoc], by rw [h2, h2', List.append_assoc], h3.trans h3', ?_⟩
  intro k
  rw [List.mem_append, h4, h4']
  simp only [List.mem_append]
  constructor
  · rintro ((⟨n, h⟩ | h) | ⟨n, h⟩ | h)
    · exact .inl ⟨n, .inl h⟩
    · exact .inr (.inl h)
    · exact .inl ⟨n, .inr h⟩
    · exact .inr (.inr h)
  · rintro (⟨n, h | h⟩ | h | h)
    · exact .inl (.inl ⟨n, h⟩)
    · exact .inr (.inl ⟨n, h⟩)
    · exact .inl (.inr h)
    · exact .inr (.inr h)

theorem kinds_wrote {d : Dest} {w : Writer} (h : Wrote d.w w) : Kinds d { d with w := w } [] := by
  obtain ⟨pre, h1, h2, h3⟩ := h
  refine ⟨pre, [], h1, rfl, h3, ?_⟩
  intro k
  simp only [List.not_mem_nil, or_false, false_iff, not_exists]
  intro n hm
  have := h2 _ hm
  simp at this

theorem kinds_failed {d : Dest} {w : Writer} {k : Nat} (h : FailedWith k d.w w) : Kinds d { d with w := w } [k] := by
  obtain ⟨pre, f, h1, h2, hk, h3⟩ := h
  refine ⟨pre ++ [some f], [], by rw [h1]; simp, rfl, h3, ?_⟩
  intro k'
  simp only [List.mem_singleton, List.mem_append, List.not_mem_nil, or_false]
  constructor
  · rintro rfl
    exact ⟨f.part, .inr (by rcases f with ⟨a, b⟩; simp only at hk; subst hk; rfl)⟩
  · rintro ⟨n, h | h⟩
    · have := h2 _ h
      simp at this
    · injection h with h
      rw [← hk, ← h]

theorem flush_kinds (d : Dest) :
    (d.flush.2 = none ∧ Kinds d d.flush.1 []) ∨ ∃ k, d.flush.2 = some k ∧ Kinds d d.flush.1 [k] := by
  rcases d with ⟨w, _ | ⟨_ | k, fs⟩⟩
  · exact .inl ⟨rfl, Kinds.refl _⟩
  · exact .inl ⟨rfl, [], [none], rfl, rfl, List.prefix_rfl, by simp⟩
  · exact .inr ⟨k, rfl, [], [some k], rfl, rfl, List.prefix_rfl, by simp⟩

theorem write_kinds (d : Dest) (u : Bool) (bs : Bytes) :
    ((d.write u bs).2 = none ∧ Kinds d (d.write u bs).1 []) ∨ ∃ k, (d.write u bs).2 = some k ∧ Kinds d (d.write u bs).1 [k] := by
  unfold Dest.write
  rcases writeAll_cases d.w bs with ⟨w', h, h'⟩ | ⟨w', k, h, h'⟩ <;> rw [h]
  · simp only
    cases u with
    | false => exact .inl ⟨rfl, kinds_wrote h'⟩
    | true =>
      simp only [if_true]
      rcases flush_kinds { d with w := w' } with ⟨h1, h2⟩ | ⟨k, h1, h2⟩
      · exact .inl ⟨h1, (kinds_wrote h').trans h2⟩
      · exact .inr ⟨k, h1, (kinds_wrote h').trans h2⟩
  · exact .inr ⟨k, rfl, kinds_failed h'⟩

namespace ToDdb

/-- What holds behind a step: no failure and the stored error is as before, or a failure of a kind that is stored. -/
def Fine (b : ToDdb) (x : Step) : Prop :=
  x.2 = none ∧ Kinds b.d x.1.d [] ∧ x.1.lastError = b.lastError ∨
  ∃ m k c, x.2 = some m ∧ Kinds b.d x.1.d [k] ∧ x.1.lastError = some (.io k c)

theorem Fine.pure (b b' : ToDdb) (hd : b'.d = b.d) (he : b'.lastError = b.lastError) : Fine b (b', none) :=
  .inl ⟨rfl, by simp only [hd]; exact Kinds.refl _, he⟩

theorem Fine.bind {b : ToDdb} {x : Step} {k : ToDdb → Step} (h : Fine b x) (hk : ∀ b', Fine b' (k b')) : Fine b (x.bind k) := by
  rcases x with ⟨b1, _ | m⟩
  · rcases h with ⟨_, h1, h2⟩ | ⟨_, _, _, h, _⟩
    · rcases hk b1 with ⟨h0, h3, h4⟩ | ⟨m, k, c, h3, h4, h5⟩
      · exact .inl ⟨h0, h1.trans h3, h4.trans h2⟩
      · exact .inr ⟨m, k, c, h3, h1.trans h4, h5⟩
    · cases h
  · exact h

theorem fine_put (bs : Bytes) (c : String) (b : ToDdb) : Fine b (b.put bs c) := by
  unfold put
  rcases hw : b.d.write b.unbuffered bs with ⟨d, _ | k⟩
  · rcases write_kinds b.d b.unbuffered bs with ⟨_, h⟩ | ⟨k', h, _⟩
    · rw [hw] at h
      exact .inl ⟨rfl, h, rfl⟩
    · rw [hw] at h
      cases h
  · rcases write_kinds b.d b.unbuffered bs with ⟨h, _⟩ | ⟨k', h, h'⟩
    · rw [hw] at h
      cases h
    · rw [hw] at h h'
      injection h with h
      subst h
      exact .inr ⟨_, k, c, rfl, h', rfl⟩

theorem fine_newline (b : ToDdb) : Fine b b.newline := by
  unfold newline
  split
  · exact fine_put _ _ _
  · exact .pure _ _ rfl rfl

theorem fine_setComma (c : Bool) (b : ToDdb) : Fine b (b.setComma c) := .pure _ _ rfl rfl
theorem fine_inc (b : ToDdb) : Fine b b.inc := .pure _ _ rfl rfl
theorem fine_dec (b : ToDdb) : Fine b b.dec := by
  unfold dec
  split <;> exact .pure _ _ rfl rfl

theorem fine_writeComma (b : ToDdb) : Fine b b.writeComma := by
  unfold writeComma
  split
  · exact (fine_put _ _ _).bind fun b => (fine_newline b).bind fun b => .pure _ _ rfl rfl
  · exact .pure _ _ rfl rfl

theorem fine_indentLoop : ∀ (n : Nat) (b : ToDdb), Fine b (indentLoop n b)
  | 0, _ => .pure _ _ rfl rfl
  | n + 1, b => (fine_put _ _ b).bind (fine_indentLoop n)

theorem fine_indent (b : ToDdb) : Fine b b.indent := by
  unfold indent
  split
  · exact fine_indentLoop _ _
  · exact .pure _ _ rfl rfl

theorem fine_flushLong (b : ToDdb) : Fine b b.flushLong := by
  unfold flushLong
  split
  · rcases hw : b.d.flush with ⟨d, _ | k⟩
    · rcases flush_kinds b.d with ⟨_, h⟩ | ⟨k', h, _⟩
      · rw [hw] at h
        exact .inl ⟨rfl, h, rfl⟩
      · rw [hw] at h
        cases h
    · rcases flush_kinds b.d with ⟨h, _⟩ | ⟨k', h, h'⟩
      · rw [hw] at h
        cases h
      · rw [hw] at h h'
        injection h with h
        subst h
        exact .inr ⟨_, k, _, rfl, h', rfl⟩
  · exact .pure _ _ rfl rfl

theorem fine_closeValue (b : ToDdb) : Fine b b.closeValue :=
  (fine_newline b).bind fun b => (fine_dec b).bind fun b => (fine_indent b).bind fun b => (fine_put _ _ b).bind (fine_setComma _)

theorem fine_rootObjectBegin (b : ToDdb) : Fine b b.rootObjectBegin := by
  unfold rootObjectBegin
  split
  · exact (fine_put _ _ b).bind fun b => (fine_newline b).bind fun b => (fine_inc b).bind fun b => (fine_indent b).bind fun b =>
      (fine_put _ _ b).bind fun b => (fine_newline b).bind fun b => (fine_inc b).bind (fine_setComma _)
  · exact (fine_put _ _ b).bind fun b => (fine_newline b).bind fun b => (fine_inc b).bind (fine_setComma _)

theorem fine_arrayBegin (b : ToDdb) : Fine b b.arrayBegin :=
  (fine_indent b).bind fun b => (fine_put _ _ b).bind fun b => (fine_newline b).bind (fine_setComma _)

theorem fine_rootArray (b : ToDdb) : Fine b b.rootArray :=
  (fine_put _ _ b).bind fun b => (fine_newline b).bind fun b => (fine_inc b).bind fine_arrayBegin

theorem fine_fieldKey (b : ToDdb) (h : b.field ≠ none) : Fine b b.fieldKey := by
  unfold fieldKey
  split
  · contradiction
  · exact (fine_writeComma b).bind fun b => (fine_indent b).bind fun b => (fine_put _ _ b).bind fun b => (fine_put _ _ b).bind fun b =>
      (fine_put _ _ b).bind fun b => (fine_newline b).bind fun b => (fine_inc b).bind (fine_setComma _)

theorem fine_elementBegin (b : ToDdb) : Fine b b.elementBegin :=
  (fine_writeComma b).bind fun b => (fine_put _ _ b).bind fun b => (fine_newline b).bind fun b => (fine_inc b).bind (fine_setComma _)

theorem fine_objectBegin (b : ToDdb) : Fine b b.objectBegin :=
  (fine_indent b).bind fun b => (fine_put _ _ b).bind fun b => (fine_newline b).bind fun b => (fine_inc b).bind (fine_setComma _)

theorem fine_rootObjectEnd (b : ToDdb) : Fine b b.rootObjectEnd := by
  refine (fine_newline b).bind fun b => (fine_dec b).bind fun b => (fine_indent b).bind fun b => Fine.bind ?_ (fine_put _ _)
  split
  · exact (fine_put _ _ b).bind fun b => (fine_newline b).bind fun b => (fine_dec b).bind fun b => (fine_indent b).bind (fine_put _ _)
  · exact fine_put _ _ b

theorem fine_objectEnd (b : ToDdb) : Fine b b.objectEnd :=
  (fine_newline b).bind fun b => (fine_dec b).bind fun b => (fine_indent b).bind fun b => (fine_put _ _ b).bind fun b =>
    (fine_newline b).bind fun b => (fine_dec b).bind fun b => (fine_indent b).bind fun b => (fine_put _ _ b).bind (fine_setComma _)

theorem fine_arrayEnd (b : ToDdb) : Fine b b.arrayEnd :=
  (fine_newline b).bind fun b => (fine_indent b).bind fun b => (fine_put _ _ b).bind fun b => (fine_newline b).bind fun b =>
    (fine_dec b).bind fun b => (fine_indent b).bind fun b => (fine_put _ _ b).bind (fine_setComma _)

theorem fine_rootArrayEnd (b : ToDdb) : Fine b b.rootArrayEnd := (fine_arrayEnd b).bind (fine_put _ _)

/-- The message of the error that stands for a failure whose kind is not stored. -/
def lost : String := "Failed to write string value"

/-- The state with the message `m` behind the failures `ks`. -/
def Told (b b' : ToDdb) (m : String) : Prop :=
  ∃ ks, Kinds b.d b'.d ks ∧ (ks = [] → b'.lastError = b.lastError) ∧
    (ks ≠ [] → (∃ k c, b'.lastError = some (.io k c) ∧ k ∈ ks) ∨ b'.lastError = b.lastError ∧ m = lost)

/-- What holds behind an action. -/
def ActedOn (b : ToDdb) (x : (RJ × ToDdb) × Acted) : Prop :=
  match x with
  | ((_, b'), .op (.error m)) => Told b b' m
  | ((_, b'), _) => Kinds b.d b'.d [] ∧ b'.lastError = b.lastError

theorem Fine.told {b : ToDdb} {b' : ToDdb} {o : Option String} (h : Fine b (b', o)) (m : String) : Told b b' m := by
  rcases h with ⟨_, h1, h2⟩ | ⟨m', k, c, h1, h2, h3⟩
  · exact ⟨[], h1, fun _ => h2, fun h => absurd rfl h⟩
  · exact ⟨[k], h2, nofun, fun _ => .inl ⟨k, c, h3, by simp⟩⟩

theorem ActedOn.from {b b' : ToDdb} {x : (RJ × ToDdb) × Acted} (h : ActedOn b' x) (hd : Kinds b.d b'.d []) (he : b'.lastError = b.lastError) :
    ActedOn b x := by
  rcases x with ⟨⟨s, b2⟩, (_ | _ | m) | _ | _⟩
  · exact ⟨hd.trans h.1, h.2.trans he⟩
  · exact ⟨hd.trans h.1, h.2.trans he⟩
  · obtain ⟨ks, h1, h2, h3⟩ := h
    exact ⟨ks, hd.trans h1, fun h => (h2 h).trans he, fun h => (h3 h).imp_right fun h => ⟨h.1.trans he, h.2⟩⟩
  · exact ⟨hd.trans h.1, h.2.trans he⟩
  · exact ⟨hd.trans h.1, h.2.trans he⟩

theorem acted_run {b : ToDdb} {x : Step} (hx : Fine b x) {k : Action ToDdb} (hk : ∀ s b, ActedOn b (k s b)) (s : RJ) :
    ActedOn b (x.run s k) := by
  rcases x with ⟨b1, _ | m⟩
  · rcases hx with ⟨_, h⟩ | ⟨_, _, _, h, _⟩
    · exact (hk s b1).from h.1 h.2
    · cases h
  · exact hx.told m

theorem acted_stay (s : RJ) (b : ToDdb) (a : Acted) : ActedOn b ((s, b), a) := by
  rcases a with (_ | _ | m) | _ | _
  · exact ⟨Kinds.refl _, rfl⟩
  · exact ⟨Kinds.refl _, rfl⟩
  · exact ⟨[], Kinds.refl _, fun _ => rfl, fun h => absurd rfl h⟩
  · exact ⟨Kinds.refl _, rfl⟩
  · exact ⟨Kinds.refl _, rfl⟩

theorem acted_act {f : ToDdb → Step} (hf : ∀ b, Fine b (f b)) (op : Scan.StreamOp) (s : RJ) (b : ToDdb) :
    ActedOn b (act f op s b) := acted_run (hf b) (fun s b => acted_stay s b _) s

theorem acted_ignoring {α : Type} (b : ToDdb) {k : Action ToDdb} (hk : ∀ s b, ActedOn b (k s b)) (x : RJ × Res α) :
    ActedOn b (ignoring b k x) := by
  rcases x with ⟨s, _ | _ | _ | _⟩
  · exact hk s b
  · exact hk s b
  · exact acted_stay _ _ _
  · exact acted_stay _ _ _

theorem acted_onString (F : Nat) (s : RJ) (b : ToDdb) : ActedOn b (onString F s b) := by
  refine acted_run ((fine_indent b).bind (fine_put _ _)) ?_ s
  intro s b
  have hl := handleLong_wrote .raw F s b.d.w
  rw [show RJ.handleLong .raw F s b.d.w = s.writeLongBytes F b.d.w from rfl] at hl
  revert hl
  rcases s.writeLongBytes F b.d.w with ⟨⟨s2, w2⟩, _ | e | _ | _⟩
  · rintro (hl | ⟨_, _, _, hl⟩)
    · exact (acted_act (fun b => (fine_flushLong b).bind fun b => (fine_put _ _ b).bind fine_closeValue) .valueIsConsumed
        s2 { b with d := { b.d with w := w2 } }).from (kinds_wrote hl) rfl
    · cases hl
  · rintro (hl | ⟨k, i, hl, _⟩)
    · exact ⟨[], kinds_wrote hl, fun _ => rfl, fun h => absurd rfl h⟩
    · exact ⟨[k], kinds_failed hl, nofun, fun _ => .inr ⟨rfl, rfl⟩⟩
  · rintro (hl | ⟨_, _, _, hl⟩)
    · exact ⟨kinds_wrote hl, rfl⟩
    · cases hl
  · rintro (hl | ⟨_, _, _, hl⟩)
    · exact ⟨kinds_wrote hl, rfl⟩
    · cases hl

theorem acted_onBool (F : Nat) (s : RJ) (b : ToDdb) : ActedOn b (onBool F s b) := by
  unfold onBool
  rcases s.peek F with ⟨s2, c | e | _ | _⟩
  · refine acted_run (fine_indent b) ?_ s2
    intro s b
    by_cases h1 : c = 116
    · simp only [h1, if_true]
      exact acted_ignoring b (acted_act (fun b => (fine_put _ _ b).bind fine_closeValue) _) _
    · rw [if_neg h1]
      by_cases h2 : c = 102
      · simp only [h2, if_true]
        exact acted_ignoring b (acted_act (fun b => (fine_put _ _ b).bind fine_closeValue) _) _
      · rw [if_neg h2]
        exact acted_stay _ _ _
  · exact acted_stay _ _ _
  · exact acted_stay _ _ _
  · exact acted_stay _ _ _

theorem acted_onNull (F : Nat) (s : RJ) (b : ToDdb) : ActedOn b (onNull F s b) := by
  unfold onNull
  rcases s.peek F with ⟨s2, c | e | _ | _⟩
  · simp only
    split
    · exact acted_stay _ _ _
    · exact acted_ignoring b (acted_act (fun b => (fine_indent b).bind fun b => (fine_put _ _ b).bind fine_closeValue) _) _
  · exact acted_stay _ _ _
  · exact acted_stay _ _ _
  · exact acted_stay _ _ _

theorem acted_onNumber (F : Nat) (s : RJ) (b : ToDdb) : ActedOn b (onNumber F s b) := by
  unfold onNumber
  rcases s.nextNumberBytes F with ⟨s2, c | e | _ | _⟩
  · exact acted_act (fun b => (fine_indent b).bind fun b => (fine_put _ _ b).bind fun b => (fine_put _ _ b).bind fun b =>
      (fine_put _ _ b).bind fine_closeValue) _ _ _
  · exact acted_stay _ _ _
  · exact acted_stay _ _ _
  · exact acted_stay _ _ _

theorem acted_onAtom (F : Nat) (s : RJ) (b : ToDdb) : ActedOn b (onAtom F s b) := by
  refine acted_run (fine_writeComma b) ?_ s
  intro s b
  rcases s.peek F with ⟨s2, c | e | _ | _⟩
  · simp only
    split
    · exact acted_onString F s2 b
    · split
      · exact acted_onBool F s2 b
      · split
        · exact acted_onNull F s2 b
        · exact acted_onNumber F s2 b
  · exact acted_stay _ _ _
  · exact acted_stay _ _ _
  · exact acted_stay _ _ _

theorem acted_onRootLiteral (F : Nat) (s : RJ) (b : ToDdb) : ActedOn b (onRootLiteral F s b) := by
  refine acted_run ((fine_put _ _ b).bind fine_inc) ?_ s
  intro s b
  have h := acted_onAtom F s b
  have hf : ∀ b : ToDdb, Fine b ((b.put [10] "writing final newline").bind (setComma false)) := fun b => (fine_put _ _ b).bind (fine_setComma _)
  revert h
  rcases onAtom F s b with ⟨⟨s2, b2⟩, (_ | _ | m) | _ | _⟩
  · exact fun h => (acted_act hf .none s2 b2).from h.1 h.2
  · exact fun h => (acted_act hf .valueIsConsumed s2 b2).from h.1 h.2
  · rintro ⟨ks, h1, h2, h3⟩
    simp only [act, Step.run]
    have h4 := hf b2
    revert h4
    rcases (b2.put [10] "writing final newline").bind (setComma false) with ⟨b3, _ | m3⟩
    · rintro (⟨_, h4, h5⟩ | ⟨_, _, _, h4, _⟩)
      · refine ⟨ks ++ [], h1.trans h4, fun h => h5.trans (h2 (by simpa using h)), fun h => ?_⟩
        rcases h3 (by simpa using h) with ⟨k, c, e, hm⟩ | ⟨e, hm⟩
        · exact .inl ⟨k, c, h5.trans e, by simpa using hm⟩
        · exact .inr ⟨h5.trans e, hm⟩
      · cases h4
    · rintro (⟨h4, _⟩ | ⟨_, k, c, _, h4, h5⟩)
      · cases h4
      · exact ⟨ks ++ [k], h1.trans h4, fun h => by simp at h, fun _ => .inl ⟨k, c, h5, by simp⟩⟩
  · exact id
  · exact id

/-- Nothing has failed so far. -/
def Well (d : Dest) (b : ToDdb) : Prop := Kinds d b.d [] ∧ b.lastError = none

/-- An action has returned the error `m`. -/
def Broken (d : Dest) (m : String) (b : ToDdb) : Prop :=
  ∃ ks, Kinds d b.d ks ∧ (ks = [] → b.lastError = none) ∧
    (ks ≠ [] → (∃ k c, b.lastError = some (.io k c) ∧ k ∈ ks) ∨ b.lastError = none ∧ m = lost)

theorem Told.broken {d : Dest} {b b' : ToDdb} {m : String} (h : Told b b' m) (hb : Well d b) : Broken d m b' := by
  obtain ⟨ks, h1, h2, h3⟩ := h
  exact ⟨ks, hb.1.trans h1, fun h => (h2 h).trans hb.2, fun h => (h3 h).imp_right fun h => ⟨h.1.trans hb.2, h.2⟩⟩

theorem kept_action {d : Dest} {b : ToDdb} (hb : Well d b) {x : (RJ × ToDdb) × Acted} (h : ActedOn b x) :
    match (generalizing := false) x with
    | ((_, b'), .op (.error m)) => Broken d m b'
    | ((_, b'), _) => Well d b' := by
  rcases x with ⟨⟨s, b'⟩, (_ | _ | m) | _ | _⟩
  · exact ⟨hb.1.trans h.1, h.2.trans hb.2⟩
  · exact ⟨hb.1.trans h.1, h.2.trans hb.2⟩
  · exact Told.broken h hb
  · exact ⟨hb.1.trans h.1, h.2.trans hb.2⟩
  · exact ⟨hb.1.trans h.1, h.2.trans hb.2⟩

theorem kept_end {d : Dest} {b : ToDdb} (hb : Well d b) {x : Step} (h : Fine b x) :
    match (generalizing := false) x with
    | (b', some m) => Broken d m b'
    | (b', none) => Well d b' := by
  rcases x with ⟨b', _ | m⟩
  · rcases h with ⟨_, h⟩ | ⟨_, _, _, h, _⟩
    · exact ⟨hb.1.trans h.1, h.2.trans hb.2⟩
    · cases h
  · exact (h.told m).broken hb

theorem find_acted (F : Nat) (p : Pseudo) (c : Ctx) (b : ToDdb) :
    (find F p c b).1.d = b.d ∧ (find F p c b).1.lastError = b.lastError ∧
    ∀ a, (find F p c b).2 = some a → ∀ s, ActedOn (find F p c b).1 (a s (find F p c b).1) := by
  unfold find
  rcases c.path with _ | ⟨parent, r⟩
  · cases p with
    | atom => exact ⟨rfl, rfl, fun a e s => by injection e with e; subst e; exact acted_onAtom F s b⟩
    | array => exact ⟨rfl, rfl, fun a e s => by injection e with e; subst e; exact acted_act fine_arrayBegin _ s b⟩
    | object => exact ⟨rfl, rfl, nofun⟩
    | none => exact ⟨rfl, rfl, nofun⟩
  · simp only
    by_cases ht : parent = nameTop
    · simp only [ht, if_true]
      cases p with
      | atom => exact ⟨rfl, rfl, fun a e s => by injection e with e; subst e; exact acted_onRootLiteral F s b⟩
      | array => exact ⟨rfl, rfl, fun a e s => by injection e with e; subst e; exact acted_act fine_rootArray _ s b⟩
      | object => exact ⟨rfl, rfl, fun a e s => by injection e with e; subst e; exact acted_act fine_rootObjectBegin _ s b⟩
      | none => exact ⟨rfl, rfl, nofun⟩
    · simp only [ht, if_false]
      cases p with
      | none =>
        refine ⟨rfl, rfl, fun a e s => ?_⟩
        injection e with e
        subst e
        exact acted_run (fine_fieldKey _ (by simp)) (fun s b => acted_stay s b _) s
      | atom =>
        refine ⟨rfl, rfl, fun a e s => ?_⟩
        injection e with e
        subst e
        by_cases ha : parent = nameArray
        · simp only [ha, if_true]
          exact acted_run (fine_elementBegin b) (acted_onAtom F) s
        · simp only [ha, if_false]
          exact acted_onAtom F s b
      | array =>
        refine ⟨rfl, rfl, fun a e s => ?_⟩
        injection e with e
        subst e
        by_cases ha : parent = nameArray
        · simp only [ha, if_true]
          exact acted_act (fun b => (fine_elementBegin b).bind fine_arrayBegin) _ s b
        · simp only [ha, if_false]
          exact acted_act fine_arrayBegin _ s b
      | object =>
        refine ⟨rfl, rfl, fun a e s => ?_⟩
        injection e with e
        subst e
        by_cases ha : parent = nameArray
        · simp only [ha, if_true]
          exact acted_act (fun b => (fine_elementBegin b).bind fine_objectBegin) _ s b
        · simp only [ha, if_false]
          exact acted_act fine_objectBegin _ s b

theorem findEnd_fine (p : Pseudo) (c : Ctx) (b : ToDdb) :
    (findEnd p c b).1 = b ∧ ∀ a, (findEnd p c b).2 = some a → ∀ b, Fine b (a b) := by
  unfold findEnd
  rcases c.path with _ | ⟨parent, r⟩
  · exact ⟨rfl, nofun⟩
  · simp only
    by_cases ht : parent = nameTop
    · simp only [ht, if_true]
      cases p with
      | atom => exact ⟨rfl, nofun⟩
      | array => exact ⟨rfl, fun a e b => by injection e with e; subst e; exact fine_rootArrayEnd b⟩
      | object => exact ⟨rfl, fun a e b => by injection e with e; subst e; exact fine_rootObjectEnd b⟩
      | none => exact ⟨rfl, nofun⟩
    · simp only [ht, if_false]
      cases p with
      | atom =>
        refine ⟨rfl, fun a e b => ?_⟩
        simp only at e
        split at e
        · injection e with e
          subst e
          exact .pure _ _ rfl rfl
        · cases e
      | array => exact ⟨rfl, fun a e b => by injection e with e; subst e; exact fine_arrayEnd b⟩
      | object => exact ⟨rfl, fun a e b => by injection e with e; subst e; exact fine_objectEnd b⟩
      | none => exact ⟨rfl, nofun⟩

theorem callbacks_keep (F : Nat) (d : Dest) : Keeps (callbacks F) (Well d) (fun m _ b => Broken d m b) := by
  constructor
  · intro p c b hb
    obtain ⟨h1, h2, h3⟩ := find_acted F p c b
    have hb' : Well d (find F p c b).1 := by unfold Well; rw [h1, h2]; exact hb
    refine ⟨hb', fun a e s => ?_⟩
    have h := kept_action hb' (h3 a e s)
    revert h
    simp only [show (callbacks F).find p c b = find F p c b from rfl]
    rcases a s (find F p c b).1 with ⟨⟨s, b⟩, (_ | _ | m) | _ | _⟩ <;> exact id
  · intro p c b hb
    obtain ⟨h1, h2⟩ := findEnd_fine p c b
    refine ⟨by rw [show (callbacks F).findEnd p c b = findEnd p c b from rfl, h1]; exact hb, fun a e => ?_⟩
    have h := kept_end hb (h2 a e b)
    rw [show (callbacks F).findEnd p c b = findEnd p c b from rfl, h1]
    revert h
    rcases a b with ⟨b', _ | m⟩
    · exact id
    · exact fun h _ => h

end ToDdb

/-- Property C45. What `convert_normal_to_ddb` answers, from the failures (`ks`) of the writer it called: without a failure
it reports no I/O error of the writer, and after a failure it returns an error. That error is the failure, with its kind,
*or* it is the error of an action that could not write a string. The full statement has no second case; it is false, see
`C45_kind_lost`. -/
theorem C45_write_error_partial (turns F : Nat) (reader : Reader) (d : Dest) (rb cb : Bytes) (pretty unbuffered item : Bool) :
    ∃ ks, Kinds d (convertNormalToDdb turns F reader d rb cb pretty unbuffered item).1.d ks ∧
      (ks = [] → ∀ k c p, (convertNormalToDdb turns F reader d rb cb pretty unbuffered item).2 ≠ .err (.io k c) p) ∧
      (ks ≠ [] → ∃ p,
        (∃ k c, (convertNormalToDdb turns F reader d rb cb pretty unbuffered item).2 = .err (.io k c) p ∧ k ∈ ks) ∨
        (convertNormalToDdb turns F reader d rb cb pretty unbuffered item).2 =
          .err (.scan (.action "Failed to write string value" p)) p) := by
  unfold convertNormalToDdb
  rcases U8Pool.new cb 34 with pool | e | _
  · simp only
    have h := scan_keeps (ToDdb.callbacks_keep F d) turns F ⟨[], false⟩
      ⟨.new reader rb, .new d item pretty unbuffered, pool⟩ ⟨Kinds.refl d, rfl⟩
    revert h
    rcases scan turns F (ToDdb.callbacks F) ⟨[], false⟩ ⟨.new reader rb, .new d item pretty unbuffered, pool⟩ with
      ⟨st, u | e | _ | _⟩ <;> intro h <;> dsimp only at h ⊢
    · rcases h with ⟨⟨h, _⟩, _⟩ | ⟨m, hm, _⟩
      · exact ⟨[], h, fun _ _ _ _ => nofun, fun h => absurd rfl h⟩
      · cases hm
    · rcases h with ⟨⟨h, he⟩, _⟩ | ⟨m, hm, ks, h1, h2, h3⟩
      · exact ⟨[], h, fun _ _ _ _ => by simp [he, report], fun h => absurd rfl h⟩
      · injection hm with hm
        refine ⟨ks, h1, fun h _ _ _ => by simp [h2 h, report], fun h => ?_⟩
        rcases h3 h with ⟨k, c, h3, hk⟩ | ⟨h3, hl⟩
        · exact ⟨position st.rj.currentIndex e, .inl ⟨k, c, by simp only [h3, report], hk⟩⟩
        · refine ⟨st.rj.currentIndex, .inr ?_⟩
          simp only [h3, report, hm, hl, position]
          rfl
    · rcases h with ⟨⟨h, _⟩, _⟩ | ⟨m, hm, _⟩
      · exact ⟨[], h, fun _ _ _ _ => nofun, fun h => absurd rfl h⟩
      · cases hm
    · rcases h with ⟨⟨h, _⟩, _⟩ | ⟨m, hm, _⟩
      · exact ⟨[], h, fun _ _ _ _ => nofun, fun h => absurd rfl h⟩
      · cases hm
  · exact ⟨[], Kinds.refl d, fun _ _ _ _ => nofun, fun h => absurd rfl h⟩
  · exact ⟨[], Kinds.refl d, fun _ _ _ _ => nofun, fun h => absurd rfl h⟩

/-- A failure with the kind in the answer: the second write, of `"N":"`, for the input `5 `. -/
example : (convertNormalToDdb 20 20 [.data 53 [32]] ⟨⟨[], [none, some ⟨7, 2⟩]⟩, []⟩ (List.replicate 16 0) (List.replicate 600 0)
    false false false).2 = .err (.io 7 "writing N type opening") 1 := by decide +kernel

/-- A failed `flush`. -/
example : (convertNormalToDdb 20 20 [.data 53 [32]] ⟨⟨[], []⟩, [none, none, some 9]⟩ (List.replicate 16 0) (List.replicate 600 0)
    false true false).2 = .err (.io 9 "writing number value") 1 := by decide +kernel

/-- Negation of the full statement: the writer fails with kind 7 inside of the string `"x"`; the answer has no kind. And the
converter goes on to write: the newline is there. -/
theorem C45_kind_lost :
    convertNormalToDdb 20 20 [.data 34 [120, 34]] ⟨⟨[], [none, none, some ⟨7, 0⟩]⟩, []⟩ (List.replicate 16 0)
        (List.replicate 600 0) false false false =
      (⟨⟨⟨[123, 34, 83, 34, 58, 34, 10], []⟩, []⟩, false, false, false, none, false, 1, none, false⟩,
        .err (.scan (.action "Failed to write string value" 3)) 3) := by decide +kernel

end Verif.Ddb
