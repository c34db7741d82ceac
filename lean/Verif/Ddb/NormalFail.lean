import Verif.Ddb.ToNormal
import Verif.Ddb.Fail

/-!
# Property C48: what `convert_ddb_to_normal` does when a write or a flush fails

For any input.
-/

namespace Verif.Ddb

open Verif.U8Pool (Pool)
open Verif.RJiter
open Verif.Scan (Action EndAction Acted Pseudo Ctx nameTop nameArray scan Keeps scan_keeps Wrote FailedWith writeAll_cases
  handleLong_wrote)

namespace ToNormal

/-- The stored error is not an I/O error of the writer outside of strings. -/
def NoIo (b : ToNormal) : Prop := ∀ k c, b.lastError ≠ some (.io k c)

/-- The stored error tells the kind of the failure. -/
def Tells (k : Nat) (b : ToNormal) : Prop := ∃ c, b.lastError = some (.io k c) ∨ b.lastError = some (.rjiter (.io k) c)

/-- No failure, and the stored error is as before. -/
def Same (b b' : ToNormal) : Prop := Kinds b.d b'.d [] ∧ b'.lastError = b.lastError

/-- A message: without a failure of the writer, or with one that is stored. -/
def Told (b b' : ToNormal) : Prop :=
  Kinds b.d b'.d [] ∧ (b'.lastError = b.lastError ∨ NoIo b') ∨ ∃ k, Kinds b.d b'.d [k] ∧ Tells k b'

theorem Same.refl (b : ToNormal) : Same b b := ⟨Kinds.refl _, rfl⟩
theorem Same.trans {a b c : ToNormal} (h : Same a b) (h' : Same b c) : Same a c := ⟨h.1.trans h'.1, h'.2.trans h.2⟩
theorem Same.told {a b : ToNormal} (h : Same a b) : Told a b := .inl ⟨h.1, .inl h.2⟩

theorem Told.from {a b c : ToNormal} (h : Told b c) (h' : Same a b) : Told a c := by
  rcases h with ⟨h1, h2⟩ | ⟨k, h1, h2⟩
  · exact .inl ⟨h'.1.trans h1, h2.imp_left fun h => h.trans h'.2⟩
  · exact .inr ⟨k, h'.1.trans h1, h2⟩

/-- What holds behind a step. -/
def Fine (b : ToNormal) : Step → Prop
  | (b', none) => Same b b'
  | (b', some _) => Told b b'

theorem Fine.bind {b : ToNormal} {x : Step} {k : ToNormal → Step} (h : Fine b x) (hk : ∀ b', Fine b' (k b')) : Fine b (x.bind k) := by
  rcases x with ⟨b1, _ | m⟩
  · have := hk b1
    simp only [Step.bind]
    revert this
    rcases k b1 with ⟨b2, _ | m⟩
    · exact fun h' => Same.trans h h'
    · exact fun h' => Told.from h' h
  · exact h

theorem fine_put (bs : Bytes) (c : String) (b : ToNormal) : Fine b (b.put bs c) := by
  unfold put
  rcases hw : b.d.write b.unbuffered bs with ⟨d, _ | k⟩
  · rcases write_kinds b.d b.unbuffered bs with ⟨_, h⟩ | ⟨k', h, _⟩
    · rw [hw] at h
      exact ⟨h, rfl⟩
    · rw [hw] at h
      cases h
  · rcases write_kinds b.d b.unbuffered bs with ⟨h, _⟩ | ⟨k', h, h'⟩
    · rw [hw] at h
      cases h
    · rw [hw] at h h'
      injection h with h
      subst h
      exact .inr ⟨k, h', c, .inl rfl⟩

theorem fine_set {f : ToNormal → ToNormal} (h1 : ∀ b, (f b).d = b.d) (h2 : ∀ b, (f b).lastError = b.lastError) (b : ToNormal) :
    Fine b (b.set f) := ⟨by rw [h1]; exact Kinds.refl _, h2 b⟩

theorem fine_newline (b : ToNormal) : Fine b b.newline := by
  unfold newline
  split
  · exact fine_put _ _ _
  · exact Same.refl _

theorem fine_dec (b : ToNormal) : Fine b b.dec := by
  unfold dec
  split <;> exact Same.refl _

theorem fine_writeComma (b : ToNormal) : Fine b b.writeComma := by
  unfold writeComma
  split
  · exact (fine_put _ _ _).bind fun b => (fine_newline b).bind fun b => Same.refl _
  · exact Same.refl _

theorem fine_indentLoop (n : Nat) : ∀ b : ToNormal, Fine b (indentLoop n b) := by
  induction n with
  | zero => exact fun b => Same.refl _
  | succ n ih => exact fun b => (fine_put _ _ b).bind ih

theorem fine_indent (b : ToNormal) : Fine b b.indent := by
  unfold indent
  split
  · exact fine_indentLoop _ _
  · exact Same.refl _

theorem fine_flushLong (b : ToNormal) : Fine b b.flushLong := by
  unfold flushLong
  split
  · rcases hw : b.d.flush with ⟨d, _ | k⟩
    · rcases flush_kinds b.d with ⟨_, h⟩ | ⟨k', h, _⟩
      · rw [hw] at h
        exact ⟨h, rfl⟩
      · rw [hw] at h
        cases h
    · rcases flush_kinds b.d with ⟨h, _⟩ | ⟨k', h, h'⟩
      · rw [hw] at h
        cases h
      · rw [hw] at h h'
        injection h with h
        subst h
        exact .inr ⟨k, h', _, .inl rfl⟩
  · exact Same.refl _

theorem fine_quote (q : Bool) (c : String) (b : ToNormal) : Fine b (b.quote q c) := by
  unfold quote
  split
  · exact fine_put _ _ _
  · exact Same.refl _

theorem fine_rootObjectBegin (b : ToNormal) : Fine b b.rootObjectBegin :=
  (fine_put _ _ b).bind fun b => (fine_newline b).bind (fine_set (fun _ => rfl) (fun _ => rfl))

theorem fine_fieldKey (b : ToNormal) : Fine b b.fieldKey := by
  unfold fieldKey
  split
  · exact (Same.refl _).told
  · exact (fine_writeComma b).bind fun b => (fine_indent b).bind fun b => (fine_put _ _ b).bind fun b => (fine_put _ _ b).bind fun b =>
      (fine_put _ _ b).bind (fine_set (fun _ => rfl) (fun _ => rfl))

theorem fine_setBegin (t : TypeDesc) (c : String) (b : ToNormal) : Fine b (b.setBegin t c) :=
  (fine_put _ _ b).bind (fine_set (fun _ => rfl) (fun _ => rfl))

theorem fine_listBegin (b : ToNormal) : Fine b b.listBegin :=
  (fine_writeComma b).bind fun b => (fine_put _ _ b).bind (fine_set (fun _ => rfl) (fun _ => rfl))

theorem fine_mapBegin (b : ToNormal) : Fine b b.mapBegin :=
  (fine_writeComma b).bind fun b => (fine_put _ _ b).bind fun b => (fine_newline b).bind (fine_set (fun _ => rfl) (fun _ => rfl))

theorem fine_listEnd (b : ToNormal) : Fine b b.listEnd := by
  unfold listEnd
  split
  · exact (Same.refl _).told
  · exact (fine_put _ _ b).bind (fine_set (fun _ => rfl) (fun _ => rfl))

theorem fine_setEnd (b : ToNormal) : Fine b b.setEnd := (fine_put _ _ b).bind (fine_set (fun _ => rfl) (fun _ => rfl))

theorem fine_mapEnd (b : ToNormal) : Fine b b.mapEnd :=
  (fine_newline b).bind fun b => (fine_dec b).bind fun b => (fine_indent b).bind fun b => (fine_put _ _ b).bind
    (fine_set (fun _ => rfl) (fun _ => rfl))

theorem fine_mapEndInArray (b : ToNormal) : Fine b b.mapEndInArray := (fine_mapEnd b).bind (fine_set (fun _ => rfl) (fun _ => rfl))

theorem fine_rootObjectEnd (b : ToNormal) : Fine b b.rootObjectEnd :=
  (fine_newline b).bind fun b => (fine_put _ _ b).bind fun b => (fine_put _ _ b).bind (fine_set (fun _ => rfl) (fun _ => rfl))

/-- What holds behind an action. -/
def ActedOn (b : ToNormal) : (RJ × ToNormal) × Acted → Prop
  | ((_, b'), .op (.error _)) => Told b b'
  | ((_, b'), _) => Same b b'

theorem ActedOn.from {b b' : ToNormal} {x : (RJ × ToNormal) × Acted} (h : ActedOn b' x) (hd : Same b b') : ActedOn b x := by
  rcases x with ⟨⟨s, b2⟩, (_ | _ | m) | _ | _⟩
  · exact hd.trans h
  · exact hd.trans h
  · exact Told.from h hd
  · exact hd.trans h
  · exact hd.trans h

theorem acted_run {b : ToNormal} {x : Step} (hx : Fine b x) {k : Action ToNormal} (hk : ∀ s b, ActedOn b (k s b)) (s : RJ) :
    ActedOn b (x.run s k) := by
  rcases x with ⟨b1, _ | m⟩
  · exact (hk s b1).from hx
  · exact hx

theorem acted_stay {b b' : ToNormal} (h : Same b b') (s : RJ) (a : Acted) : ActedOn b ((s, b'), a) := by
  rcases a with (_ | _ | m) | _ | _
  · exact h
  · exact h
  · exact h.told
  · exact h
  · exact h

theorem acted_act {f : ToNormal → Step} (hf : ∀ b, Fine b (f b)) (op : Scan.StreamOp) (s : RJ) (b : ToNormal) :
    ActedOn b (act f op s b) := acted_run (hf b) (fun s _ => acted_stay (Same.refl _) s _) s

theorem told_storeRj {b : ToNormal} (e : Err) (c : String) : Told b (b.storeRj e c) := .inl ⟨Kinds.refl _, .inr (by intro k c; simp [storeRj])⟩

theorem acted_writeString (F : Nat) (q : Bool) (c1 c2 : String) (s : RJ) (b : ToNormal) : ActedOn b (writeString F q c1 c2 s b) := by
  unfold writeString
  rcases s.peek F with ⟨s2, c | e | _ | _⟩
  · simp only
    split
    · exact acted_stay (Same.refl _) _ _
    · refine acted_run ((fine_writeComma b).bind (fine_quote _ _)) ?_ s2
      intro s b
      have hl := handleLong_wrote .raw F s b.d.w
      rw [show RJ.handleLong .raw F s b.d.w = s.writeLongBytes F b.d.w from rfl] at hl
      revert hl
      rcases s.writeLongBytes F b.d.w with ⟨⟨s2, w2⟩, _ | e | _ | _⟩
      · rintro (hl | ⟨_, _, _, hl⟩)
        · refine ActedOn.from (b' := { b with d := { b.d with w := w2 } }) ?_ ⟨kinds_wrote hl, rfl⟩
          refine acted_act (fun b => ?_) _ _ _
          refine (fine_flushLong b).bind fun b => (fine_quote _ _ b).bind fun b => ?_
          exact ⟨Kinds.refl _, rfl⟩
        · cases hl
      · rintro (hl | ⟨k, i, hl, he⟩)
        · exact .inl ⟨kinds_wrote hl, .inr (by intro k c; simp [storeRj])⟩
        · injection he with he
          subst he
          exact .inr ⟨k, kinds_failed hl, _, .inr rfl⟩
      · rintro (hl | ⟨_, _, _, hl⟩)
        · exact ⟨kinds_wrote hl, rfl⟩
        · cases hl
      · rintro (hl | ⟨_, _, _, hl⟩)
        · exact ⟨kinds_wrote hl, rfl⟩
        · cases hl
  · exact told_storeRj _ _
  · exact acted_stay (Same.refl _) _ _
  · exact acted_stay (Same.refl _) _ _

theorem acted_writeBool (F : Nat) (o : Byte → Bytes × Option String) (c : String) (s : RJ) (b : ToNormal) : ActedOn b (writeBool F o c s b) := by
  unfold writeBool
  rcases s.peek F with ⟨s2, pk | e | _ | _⟩
  · simp only
    rcases o pk with ⟨bytes, _ | m⟩
    · refine acted_run (fine_writeComma b) ?_ s2
      intro s b
      rcases s.knownBool F pk with ⟨s3, v | e | _ | _⟩
      · refine acted_act (fun b => ?_) _ _ _
        refine (fine_put _ _ b).bind fun b => ?_
        exact ⟨Kinds.refl _, rfl⟩
      · exact told_storeRj _ _
      · exact acted_stay (Same.refl _) _ _
      · exact acted_stay (Same.refl _) _ _
    · exact acted_stay (Same.refl _) _ _
  · exact told_storeRj _ _
  · exact acted_stay (Same.refl _) _ _
  · exact acted_stay (Same.refl _) _ _

theorem Same.set {b b' b2 : ToNormal} (h : Same b b') (h1 : b2.d = b'.d) (h2 : b2.lastError = b'.lastError) : Same b b2 :=
  ⟨h1 ▸ h.1, h2.trans h.2⟩

theorem Told.set {b b' b2 : ToNormal} (h : Told b b') (h1 : b2.d = b'.d) (h2 : b2.lastError = b'.lastError) : Told b b2 := by
  rcases h with ⟨h3, h4⟩ | ⟨k, h3, c, h4⟩
  · exact .inl ⟨h1 ▸ h3, h4.imp (fun h => h2.trans h) fun h k c => by rw [h2]; exact h k c⟩
  · exact .inr ⟨k, h1 ▸ h3, c, by rw [h2]; exact h4⟩

theorem acted_settle {f : ToNormal → ToNormal} (h1 : ∀ b, (f b).d = b.d) (h2 : ∀ b, (f b).lastError = b.lastError) {b : ToNormal}
    {x : (RJ × ToNormal) × Acted} (h : ActedOn b x) : ActedOn b (settle f x) := by
  rcases x with ⟨⟨s, b2⟩, (_ | _ | m) | _ | _⟩
  · exact Same.set h (h1 b2) (h2 b2)
  · exact Same.set h (h1 b2) (h2 b2)
  · exact Told.set h (h1 b2) (h2 b2)
  · exact h
  · exact h

theorem acted_onTypeKey (F : Nat) (s : RJ) (b : ToNormal) : ActedOn b (onTypeKey F s b) := by
  unfold onTypeKey
  split
  · exact acted_stay (Same.refl _) _ _
  · split
    · refine acted_settle ?_ ?_ (acted_writeString _ _ _ _ _ _) <;> exact fun _ => rfl
    · split
      · refine acted_settle ?_ ?_ (acted_writeString _ _ _ _ _ _) <;> exact fun _ => rfl
      · split
        · refine acted_settle ?_ ?_ (acted_writeBool _ _ _ _ _) <;> exact fun _ => rfl
        · split
          · refine acted_settle ?_ ?_ (acted_writeBool _ _ _ _ _) <;> exact fun _ => rfl
          · split
            · exact acted_act (fine_setBegin _ _) _ _ _
            · split
              · exact acted_act (fine_setBegin _ _) _ _ _
              · split
                · exact acted_act fine_listBegin _ _ _
                · split
                  · exact acted_act fine_mapBegin _ _ _
                  · exact .inl ⟨Kinds.refl _, .inr (by intro k c; simp [storeParse])⟩

/-- Nothing has failed so far. -/
def Well (d : Dest) (b : ToNormal) : Prop := Kinds d b.d [] ∧ NoIo b

/-- An action has returned an error. -/
def Broken (d : Dest) (b : ToNormal) : Prop :=
  Well d b ∨ ∃ k, Kinds d b.d [k] ∧ Tells k b

theorem Same.well {d : Dest} {b b' : ToNormal} (h : Same b b') (hb : Well d b) : Well d b' :=
  ⟨hb.1.trans h.1, by intro k c; rw [h.2]; exact hb.2 k c⟩

theorem Told.broken {d : Dest} {b b' : ToNormal} (h : Told b b') (hb : Well d b) : Broken d b' := by
  rcases h with ⟨h1, h2 | h2⟩ | ⟨k, h1, h2⟩
  · exact .inl (Same.well ⟨h1, h2⟩ hb)
  · exact .inl ⟨hb.1.trans h1, h2⟩
  · exact .inr ⟨k, hb.1.trans h1, h2⟩

/-- What a matcher may return. -/
def Found (d : Dest) (x : ToNormal × Option (Action ToNormal)) : Prop :=
  Well d x.1 ∧ ∀ a, x.2 = some a → ∀ s, ActedOn x.1 (a s x.1)

theorem found_reject {d : Dest} {b : ToNormal} (hb : Well d b) (c : String) : Found d (reject c b) :=
  ⟨⟨hb.1, by intro k c; simp [reject, storeParse]⟩, fun a e s => by injection e with e; subst e; exact acted_stay (Same.refl _) _ _⟩

theorem found_none {d : Dest} {b : ToNormal} (hb : Well d b) : Found d (b, none) := ⟨hb, nofun⟩

theorem found_some {d : Dest} {b : ToNormal} (hb : Well d b) {a : Action ToNormal} (ha : ∀ s b, ActedOn b (a s b)) : Found d (b, some a) :=
  ⟨hb, fun a' e s => by injection e with e; subst e; exact ha s b⟩

theorem find_found {d : Dest} (F : Nat) (p : Pseudo) (c : Ctx) {b : ToNormal} (hb : Well d b) : Found d (find F p c b) := by
  have hf : ∀ k, Well d { b with field := some k } := fun _ => hb
  have hkey : ∀ s b, ActedOn b (act fieldKey .none s b) := acted_act fine_fieldKey _
  unfold find
  cases p with
  | object =>
    simp only [findObject]
    split
    · exact found_some hb (acted_act fine_rootObjectBegin _)
    · split
      · exact found_reject hb _
      · split
        · exact found_reject hb _
        · exact found_none hb
      · exact found_none hb
      · split
        · exact found_none hb
        · exact found_reject hb _
  | none =>
    simp only [findKey]
    split
    · exact found_none hb
    · split
      · split
        · exact found_none hb
        · exact found_some (hf _) hkey
      · exact found_some (hf _) (acted_onTypeKey F)
      · split
        · exact found_some (hf _) (acted_onTypeKey F)
        · exact found_reject hb _
      · exact found_some (hf _) hkey
  | array =>
    simp only [findArray]
    split
    · exact found_none hb
    · exact found_none hb
    · exact found_none hb
    · exact found_reject hb _
  | atom =>
    simp only [findAtom]
    split
    · exact found_reject hb _
    · split
      · split
        · exact found_some hb (acted_writeString _ _ _ _)
        · exact found_some hb (acted_writeString _ _ _ _)
      · exact found_reject hb _

theorem findEnd_fine (p : Pseudo) (c : Ctx) (b : ToNormal) :
    (findEnd p c b).1 = b ∧ ∀ a, (findEnd p c b).2 = some a → ∀ b, Fine b (a b) := by
  have hg : ∀ ph b, Fine b (goto ph b) := fun _ => fine_set (fun _ => rfl) (fun _ => rfl)
  unfold findEnd
  cases p with
  | array =>
    refine ⟨rfl, fun a e b => ?_⟩
    simp only at e
    split at e
    · injection e with e; subst e; exact fine_listEnd b
    · split at e
      · injection e with e; subst e; exact fine_setEnd b
      · cases e
  | object =>
    refine ⟨rfl, fun a e b => ?_⟩
    simp only at e
    split at e
    · injection e with e; subst e; exact fine_rootObjectEnd b
    · cases e
  | none =>
    refine ⟨rfl, fun a e b => ?_⟩
    simp only [findEndKey] at e
    split at e
    · cases e
    · split at e
      · injection e with e; subst e; exact hg _ b
      · injection e with e; subst e; exact hg _ b
      · split at e
        · cases e
        · injection e with e
          subst e
          split
          · exact fine_mapEndInArray b
          · exact fine_mapEnd b
      · split at e
        · cases e
        · injection e with e; subst e; exact hg _ b
  | atom => exact ⟨rfl, nofun⟩

theorem callbacks_keep (F : Nat) (d : Dest) : Keeps (callbacks F) (Well d) (fun _ _ b => Broken d b) := by
  constructor
  · intro p c b hb
    obtain ⟨h1, h2⟩ := find_found F p c hb
    refine ⟨h1, fun a e s => ?_⟩
    have h := h2 a e s
    revert h h1
    simp only [show (callbacks F).find p c b = find F p c b from rfl]
    rcases a s (find F p c b).1 with ⟨⟨s, b⟩, (_ | _ | m) | _ | _⟩
    · exact fun h1 h => Same.well h h1
    · exact fun h1 h => Same.well h h1
    · exact fun h1 h => Told.broken h h1
    · exact fun h1 h => Same.well h h1
    · exact fun h1 h => Same.well h h1
  · intro p c b hb
    obtain ⟨h1, h2⟩ := findEnd_fine p c b
    refine ⟨by rw [show (callbacks F).findEnd p c b = findEnd p c b from rfl, h1]; exact hb, fun a e => ?_⟩
    have h := h2 a e b
    rw [show (callbacks F).findEnd p c b = findEnd p c b from rfl, h1]
    revert h
    rcases a b with ⟨b', _ | m⟩
    · exact fun h => Same.well h hb
    · exact fun h _ => Told.broken h hb

end ToNormal

/-- Property C48. What `convert_ddb_to_normal` answers, from the failures (`ks`) of the writer it called: without a failure it
reports no I/O error of a write or flush, and after a failure it returns an error with the kind of the failure. (Inside of a
string the writer is called by the parser, and the error is stored as an error of the parser, with its kind.) -/
theorem C48_write_error (turns F : Nat) (reader : Reader) (d : Dest) (rb cb : Bytes) (pretty unbuffered asWrapper : Bool) :
    ∃ ks, Kinds d (convertDdbToNormal turns F reader d rb cb pretty unbuffered asWrapper).1.d ks ∧
      (ks = [] → ∀ k c p, (convertDdbToNormal turns F reader d rb cb pretty unbuffered asWrapper).2 ≠ .err (.io k c) p) ∧
      (ks ≠ [] → ∃ k ∈ ks, ∃ c p,
        (convertDdbToNormal turns F reader d rb cb pretty unbuffered asWrapper).2 = .err (.io k c) p ∨
        (convertDdbToNormal turns F reader d rb cb pretty unbuffered asWrapper).2 = .err (.rjiter (.io k) c) p) := by
  unfold convertDdbToNormal
  rcases U8Pool.new cb 68 with pool | e | _
  · simp only
    have h := scan_keeps (ToNormal.callbacks_keep F d) turns F ⟨[], false⟩
      ⟨.new reader rb, .new d pretty unbuffered asWrapper, pool⟩ ⟨Kinds.refl d, by intro k c; simp [ToNormal.new]⟩
    have hw : ∀ (b : ToNormal) i e, ToNormal.Well d b → ∀ k c p, report b.lastError i e ≠ .err (.io k c) p := by
      intro b i e hb k c p
      unfold report
      split
      · rename_i err he
        intro hc
        injection hc with hc
        exact hb.2 k c (by rw [he, hc])
      · simp
    revert h
    rcases scan turns F (ToNormal.callbacks F) ⟨[], false⟩ ⟨.new reader rb, .new d pretty unbuffered asWrapper, pool⟩ with
      ⟨st, u | e | _ | _⟩ <;> intro h <;> dsimp only at h ⊢
    · rcases h with ⟨⟨h, _⟩, _⟩ | ⟨m, hm, _⟩
      · exact ⟨[], h, fun _ _ _ _ => nofun, fun h => absurd rfl h⟩
      · cases hm
    · rcases h with ⟨h, _⟩ | ⟨m, hm, h | ⟨k, h1, c, h2⟩⟩
      · exact ⟨[], h.1, fun _ => hw _ _ _ h, fun h => absurd rfl h⟩
      · exact ⟨[], h.1, fun _ => hw _ _ _ h, fun h => absurd rfl h⟩
      · refine ⟨[k], h1, nofun, fun _ => ⟨k, by simp, c, position st.rj.currentIndex e, ?_⟩⟩
        rcases h2 with h2 | h2
        · exact .inl (by simp only [h2, report])
        · exact .inr (by simp only [h2, report])
    · rcases h with ⟨⟨h, _⟩, _⟩ | ⟨m, hm, _⟩
      · exact ⟨[], h, fun _ _ _ _ => nofun, fun h => absurd rfl h⟩
      · cases hm
    · rcases h with ⟨⟨h, _⟩, _⟩ | ⟨m, hm, _⟩
      · exact ⟨[], h, fun _ _ _ _ => nofun, fun h => absurd rfl h⟩
      · cases hm
  · exact ⟨[], Kinds.refl d, fun _ _ _ _ => nofun, fun h => absurd rfl h⟩
  · exact ⟨[], Kinds.refl d, fun _ _ _ _ => nofun, fun h => absurd rfl h⟩

/-- `{"a":{"S":"x"}}` -/
def exS : Reader := [.data 123 [34, 97, 34, 58, 123, 34, 83, 34, 58, 34, 120, 34, 125, 125]]

/-- The second write, of the quote of a field name, fails. -/
example : (convertDdbToNormal 20 30 exS ⟨⟨[], [none, some ⟨7, 0⟩]⟩, []⟩ (List.replicate 20 0) (List.replicate 600 0) false false false).2 =
    .err (.io 7 "writing field name opening quote") 5 := by decide +kernel

/-- The write inside of the string fails. -/
example : (convertDdbToNormal 20 30 exS ⟨⟨[], [none, none, none, none, none, some ⟨7, 0⟩]⟩, []⟩ (List.replicate 20 0) (List.replicate 600 0)
    false false false).2 = .err (.rjiter (.io 7) "S/B (string) type") 13 := by decide +kernel

/-- A flush fails. -/
example : (convertDdbToNormal 20 30 exS ⟨⟨[], []⟩, [none, some 9]⟩ (List.replicate 20 0) (List.replicate 600 0) false true false).2 =
    .err (.io 9 "writing field name opening quote") 5 := by decide +kernel

end Verif.Ddb
