import Verif.Ddb.NormalFail
import Verif.Ddb.NormalSpec
import Verif.Ddb.ToDdbProps
import Verif.Scan.Guard

/-!
# Property C49: what `convert_ddb_to_normal` writes
-/

namespace Verif.Ddb

open Verif.U8Pool (Pool)
open Verif.RJiter
open Verif.Scan

namespace ToNormal

/-! ## The callbacks with a writer that does not fail -/

/-- A writer that does not fail. -/
abbrev sound : Dest := ⟨⟨[], []⟩, []⟩

theorem kinds_sound {d : Dest} {ks : List Nat} (h : Kinds sound d ks) : d.w.plan = [] ∧ d.flushes = [] := by
  obtain ⟨ws, fs, h1, h2, _⟩ := h
  simp only [List.nil_eq, List.append_eq_nil_iff] at h1 h2
  exact ⟨h1.2, h2.2⟩

theorem well_iff {b : ToNormal} : Well sound b ↔ b.d.w.plan = [] ∧ b.d.flushes = [] ∧ NoIo b := by
  constructor
  · intro h
    have := kinds_sound h.1
    exact ⟨this.1, this.2, h.2⟩
  · rintro ⟨h1, h2, h3⟩
    exact ⟨⟨[], [], h1.symm, h2.symm, List.nil_prefix, by simp⟩, h3⟩

/-- What `write_string_value` does with a string. -/
def string (quotes : Bool) (body : Bytes) (b : ToNormal) : Step :=
  (b.writeComma.bind (quote quotes "writing opening quote")).bind fun b =>
  ({ b with d := { b.d with w := ⟨b.d.w.out ++ body, []⟩ } } : ToNormal).flushLong.bind fun b =>
  (b.quote quotes "writing closing quote").bind (set fun b => { b with comma := true })

/-- A step, and the answer if it does not fail. -/
def Step.op (x : Step) (o : StreamOp) : ToNormal × StreamOp :=
  match x with
  | (b, none) => (b, o)
  | (b, some m) => (b, .error m)

/-- What `write_string_value` does with any value. -/
def stringAt (quotes : Bool) (v : Val) (b : ToNormal) : ToNormal × StreamOp :=
  if v.text.head? = some 34 then (b.string quotes v.text.tail.dropLast).op .valueIsConsumed else (b, .error "Expected string value")

/-- What `handle_bool_based_type` does with any value. -/
def boolAt (output : Byte → Bytes × Option String) (name : String) (v : Val) (b : ToNormal) : ToNormal × StreamOp :=
  match output (v.text.headD 0) with
  | (_, some m) => (b, .error m)
  | (bytes, none) =>
    (b.writeComma.bind fun b => (b.put bytes name).bind (set fun b => { b with comma := true, type := none })).op .valueIsConsumed

/-- What `on_type_key` does with any value. -/
def typeAt (v : Val) (b : ToNormal) : ToNormal × StreamOp :=
  match b.field with
  | none => (b, .error "current_field should be set for type key")
  | some key =>
    if key = [83] ∨ key = [66] then Prod.map (fun b => { b with type := none, phase := .value }) id (stringAt true v b)
    else if key = [78] then Prod.map (fun b => { b with type := none, phase := .value }) id (stringAt false v b)
    else if key = [66, 79, 79, 76] then Prod.map (fun b => { b with phase := .value }) id (boolAt boolOutput "BOOL type" v b)
    else if key = [78, 85, 76, 76] then Prod.map (fun b => { b with phase := .value }) id (boolAt nullOutput "NULL type" v b)
    else if key = [83, 83] ∨ key = [66, 83] then (b.setBegin .ss "writing SS/BS opening bracket").op .none
    else if key = [78, 83] then (b.setBegin .ns "writing NS opening bracket").op .none
    else if key = [76] then b.listBegin.op .none
    else if key = [77] then b.mapBegin.op .none
    else (b.storeParse "Invalid DynamoDB JSON format: unknown type descriptor" (some key), .error "Unknown type descriptor")

/-- A rejected document. -/
def rejected (context : String) (b : ToNormal) : ToNormal × StreamOp :=
  (b.storeParse context none, .error "Validation error (see stored error)")

/-- What the callbacks do if no write fails. -/
def handler : Handler ToNormal where
  start p path v b :=
    match p with
    | .object =>
      if b.depth = 0 then b.rootObjectBegin.op .none
      else
        match b.phase with
        | .value => rejected "Invalid DynamoDB JSON format: unexpected object value" b
        | .typeKey =>
          if b.type = some .l then rejected "Invalid DynamoDB JSON format: L type expects an array value, not an object" b else (b, .none)
        | .field => (b, .none)
        | .consumed =>
          if path.head? = some nameArray then (b, .none)
          else rejected "Invalid DynamoDB JSON format: unexpected nested object in type descriptor" b
    | .none =>
      match path with
      | [] => (b, .none)
      | key :: above =>
        match b.phase with
        | .field =>
          if key = nameItem ∧ b.asWrapper ∧ above.head? = some nameTop then (b, .none)
          else ({ b with field := some key } : ToNormal).fieldKey.op .none
        | .typeKey => typeAt v { b with field := some key }
        | .value =>
          if b.type = some .ss ∨ b.type = some .ns then typeAt v { b with field := some key }
          else rejected "Unexpected key in ExpectingValue phase (not in set)" b
        | .consumed => ({ b with field := some key } : ToNormal).fieldKey.op .none
    | .array =>
      match b.type with
      | some .ss => (b, .none)
      | some .ns => (b, .none)
      | some .l => ({ b with type := none }, .none)
      | _ => rejected "Invalid DynamoDB JSON format: unexpected array value" b
    | .atom =>
      if b.phase ≠ .value then rejected atomMessage b
      else if (b.type = some .ss ∨ b.type = some .ns) ∧ path.head? = some nameArray then
        if b.type = some .ss then stringAt true v b else stringAt false v b
      else rejected atomMessage b
  finish p path b := ended (findEnd p ⟨path, path.length⟩ b)

variable {M : Mode} {L F : Nat}

theorem answer_act {s : RJ} (hi : Inv M L F s) {ws : Bytes} {v : Val} {b : ToNormal} (f : ToNormal → Step) :
    Answer (Inv M L F) s ws v ((f b).op .none) (act f .none s b) := by
  unfold act
  rcases f b with ⟨b', _ | m⟩
  · exact ⟨rfl, hi, ⟨0, Nat.zero_le _, .refl hi.sync⟩, fun h => ⟨h, rfl⟩⟩
  · rfl

theorem answer_done {s s2 : RJ} (hi : Inv M L F s2) {ws : Bytes} {v : Val} (hm : s.Moved s2 (ws.length + v.text.length)) (hj : 0 < s2.jidx)
    {b : ToNormal} (f : ToNormal → Step) :
    Answer (Inv M L F) s ws v ((f b).op .valueIsConsumed) (act f .valueIsConsumed s2 b) := by
  unfold act
  rcases f b with ⟨b', _ | m⟩
  · exact ⟨rfl, hi, hm, hj⟩
  · rfl

/-- The first byte of a value. -/
theorem val_first {v : Val} (h : v.Meets (rules M L)) : ∃ c r, v.text = c :: r ∧ ¬ Space c ∧ c ≠ 12 := by
  cases v with
  | atom tok =>
    obtain ⟨c, r, e, h1, h2, _⟩ := atom_first (show IsAtom (fun n => n.length + 1 ≤ L) M.str tok from h)
    exact ⟨c, r, e, h1, h2⟩
  | arr w is => exact ⟨91, _, by rw [Val.text], by unfold Space; decide, by decide⟩
  | obj w ms => exact ⟨123, _, by rw [Val.text], by unfold Space; decide, by decide⟩

theorem string_val {v : Val} (h : v.Meets (rules M L)) {r : Bytes} (e : v.text = 34 :: r) :
    ∃ body, v.text = quoted body ∧ RawBody body ∧ M.str body := by
  cases v with
  | arr w is => rw [Val.text] at e; cases e
  | obj w ms => rw [Val.text] at e; cases e
  | atom tok =>
    have h : IsAtom (fun n => n.length + 1 ≤ L) M.str tok := h
    simp only [Val.text] at e ⊢
    cases h with
    | null => cases e
    | true => cases e
    | false => cases e
    | number tok hn hl =>
      obtain ⟨c, r', e', hc⟩ := number_first hn
      rw [e] at e'
      injection e' with e' _
      subst e'
      exact absurd hc (by decide)
    | string body hb hs => exact ⟨body, rfl, hb, hs⟩

theorem bool_val {v : Val} (h : v.Meets (rules M L)) {c : Byte} {r : Bytes} (hc : c = 116 ∨ c = 102) (e : v.text = c :: r) :
    v.text = if c = 116 then [116, 114, 117, 101] else [102, 97, 108, 115, 101] := by
  cases v with
  | arr w is =>
    rw [Val.text] at e
    injection e with e _
    subst e
    exact absurd hc (by decide)
  | obj w ms =>
    rw [Val.text] at e
    injection e with e _
    subst e
    exact absurd hc (by decide)
  | atom tok =>
    have h : IsAtom (fun n => n.length + 1 ≤ L) M.str tok := h
    simp only [Val.text] at e ⊢
    cases h with
    | null =>
      injection e with e _
      subst e
      exact absurd hc (by decide)
    | true =>
      injection e with e _
      subst e
      rfl
    | false =>
      injection e with e _
      subst e
      rfl
    | number tok hn hl =>
      obtain ⟨c', r', e', hc'⟩ := number_first hn
      rw [e] at e'
      injection e' with e' _
      subst e'
      rcases hc with rfl | rfl <;> exact absurd hc' (by decide)
    | string body hb hs =>
      injection e with e _
      subst e
      exact absurd hc (by decide)

theorem writeString_answer {s : RJ} (hi : Inv M L F s) {ws t : Bytes} {v : Val} (hv : v.Meets (rules M L)) (hw : Spaces ws)
    (hr : s.rest = ws ++ (v.text ++ t)) {b : ToNormal} (hb : b.d.w.plan = []) (q : Bool) (c1 c2 : String) :
    Answer (Inv M L F) s ws v (stringAt q v b) (writeString F q c1 c2 s b) := by
  obtain ⟨c, r, e, hc1, hc2⟩ := val_first hv
  obtain ⟨s1, e1, hi1, hm1⟩ := hi.peek (ws := ws) (c := c) (t := r ++ t) (by rw [hr, e]; rfl) hw hc1 hc2
  have hr1 : s1.rest = v.text ++ t := by rw [hm1.rest, hr]; simp
  unfold writeString stringAt
  simp only [e1]
  by_cases hc : c = 34
  · subst hc
    obtain ⟨body, eb, hbd, hs⟩ := string_val hv e
    simp only [ne_eq, not_true_eq_false, if_false]
    rw [if_pos (by rw [e]; rfl), eb]
    simp only [quoted, List.tail_cons, List.dropLast_concat, string]
    have hfine := (fine_writeComma b).bind (fine_quote q "writing opening quote")
    revert hfine
    rcases b.writeComma.bind (quote q "writing opening quote") with ⟨b1, _ | m⟩
    · intro hfine
      have hp : b1.d.w.plan = [] := by
        obtain ⟨ws, fs, h1, h2, _⟩ := hfine.1
        rw [hb] at h1
        simp only [List.nil_eq, List.append_eq_nil_iff] at h1
        exact h1.2
      obtain ⟨s2, w', e2, ho, hi2, hm2, hj2⟩ := hi1.string b1.d.w hbd hs hp (t := t) (by rw [hr1, eb]; simp [quoted])
      have hw' : w' = ⟨b1.d.w.out ++ body, []⟩ := by
        have := handleLong_wrote .raw F s1 b1.d.w
        rw [show RJ.handleLong .raw F s1 b1.d.w = _ from e2] at this
        refine Writer.clean_eq ?_ ho
        rcases this with h | ⟨_, _, _, h⟩
        · exact h.clean hp
        · cases h
      subst hw'
      simp only [Step.run, e2]
      refine answer_done hi2 ?_ hj2 _
      have := hm1.trans hm2
      rw [eb]
      simpa [quoted] using this
    · intro _
      rfl
  · rw [if_neg (by rw [e]; simpa using hc)]
    simp only [ne_eq, hc, not_false_eq_true, if_true]
    rfl

theorem writeBool_answer {s : RJ} (hi : Inv M L F s) {ws t : Bytes} {v : Val} (hv : v.Meets (rules M L)) (hw : Spaces ws)
    (hr : s.rest = ws ++ (v.text ++ t)) {b : ToNormal} (o : Byte → Bytes × Option String) (ho : ∀ c, (o c).2 = none → c = 116 ∨ c = 102)
    (name : String) : Answer (Inv M L F) s ws v (boolAt o name v b) (writeBool F o name s b) := by
  obtain ⟨c, r, e, hc1, hc2⟩ := val_first hv
  obtain ⟨s1, e1, hi1, hm1⟩ := hi.peek (ws := ws) (c := c) (t := r ++ t) (by rw [hr, e]; rfl) hw hc1 hc2
  have hr1 : s1.rest = v.text ++ t := by rw [hm1.rest, hr]; simp
  unfold writeBool boolAt
  simp only [e1]
  rw [show v.text.headD 0 = c by rw [e]; rfl]
  have ho := ho c
  revert ho
  rcases o c with ⟨bytes, _ | m⟩
  · intro ho
    have hc := ho rfl
    simp only
    rcases b.writeComma with ⟨b1, _ | m⟩
    · have hv' := bool_val hv hc e
      have key : ∃ s2 x, s1.knownBool F c = (s2, .ok x) ∧ Inv M L F s2 ∧ s1.Moved s2 v.text.length ∧ 0 < s2.jidx := by
        rw [hv'] at hr1 ⊢
        rcases hc with rfl | rfl
        · obtain ⟨s2, h1, h2⟩ := hi1.true hr1
          exact ⟨s2, _, h1, h2⟩
        · obtain ⟨s2, h1, h2⟩ := hi1.false hr1
          exact ⟨s2, _, h1, h2⟩
      obtain ⟨s2, x, e2, hi2, hm2, hj2⟩ := key
      simp only [Step.run, e2]
      exact answer_done hi2 (hm1.trans hm2) hj2 _
    · rfl
  · intro _
    rfl

theorem answer_settle {s : RJ} {ws : Bytes} {v : Val} {y : ToNormal × StreamOp} {x : (RJ × ToNormal) × Acted}
    (h : Answer (Inv M L F) s ws v y x) (f : ToNormal → ToNormal) : Answer (Inv M L F) s ws v (Prod.map f id y) (settle f x) := by
  rcases x with ⟨⟨s', b⟩, (_ | _ | m) | _ | _⟩
  · obtain ⟨rfl, h⟩ := h
    exact ⟨rfl, h⟩
  · obtain ⟨rfl, h⟩ := h
    exact ⟨rfl, h⟩
  · obtain rfl := h
    rfl
  · exact h
  · exact h

theorem onTypeKey_answer {s : RJ} (hi : Inv M L F s) {ws t : Bytes} {v : Val} (hv : v.Meets (rules M L)) (hw : Spaces ws)
    (hr : s.rest = ws ++ (v.text ++ t)) {b : ToNormal} (hb : b.d.w.plan = []) :
    Answer (Inv M L F) s ws v (typeAt v b) (onTypeKey F s b) := by
  have hbo : ∀ c, (boolOutput c).2 = none → c = 116 ∨ c = 102 := by
    intro c h
    unfold boolOutput at h
    split at h
    · exact .inl ‹_›
    · split at h
      · exact .inr ‹_›
      · cases h
  have hno : ∀ c, (nullOutput c).2 = none → c = 116 ∨ c = 102 := by
    intro c h
    unfold nullOutput at h
    split at h
    · exact .inl ‹_›
    · cases h
  unfold typeAt onTypeKey
  cases b.field with
  | none => rfl
  | some key =>
    simp only
    split
    · exact answer_settle (writeString_answer hi hv hw hr hb _ _ _) _
    · split
      · exact answer_settle (writeString_answer hi hv hw hr hb _ _ _) _
      · split
        · exact answer_settle (writeBool_answer hi hv hw hr _ hbo _) _
        · split
          · exact answer_settle (writeBool_answer hi hv hw hr _ hno _) _
          · split
            · exact answer_act hi _
            · split
              · exact answer_act hi _
              · split
                · exact answer_act hi _
                · split
                  · exact answer_act hi _
                  · rfl

theorem implements : ImplementsOn (Well sound) (callbacks F) handler (Inv M L F) (rules M L) := by
  refine ⟨?_, fun p path b _ => rfl⟩
  intro p path v b s ws t hb hi h1 h2 h3 h4 h5 h6 h7
  have hp := (well_iff.1 hb).1
  simp only [callbacks, find, handler]
  cases p with
  | object =>
    simp only [findObject]
    by_cases h0 : b.depth = 0
    · rw [if_pos h0, if_pos h0]
      exact answer_act hi _
    · rw [if_neg h0, if_neg h0]
      cases b.phase with
      | value => rfl
      | typeKey =>
        simp only
        split <;> rfl
      | field => rfl
      | consumed =>
        simp only
        split <;> rfl
  | none =>
    rcases path with _ | ⟨key, above⟩
    · rfl
    · simp only [findKey]
      rcases hph : b.phase with _ | _ | _ | _
      case value =>
        simp only
        split
        · exact onTypeKey_answer hi h2 h3 h6 hp
        · rfl
      case typeKey => exact onTypeKey_answer (b := { b with field := some key, phase := .typeKey }) hi h2 h3 h6 hp
      case field =>
        simp only
        split
        · rfl
        · exact answer_act hi _
      case consumed => exact answer_act hi _
  | array =>
    simp only [findArray]
    rcases b.type with _ | _ | _ | _ | _ <;> rfl
  | atom =>
    simp only [findAtom]
    split
    · rfl
    · split
      · split
        · exact writeString_answer hi h2 h3 h6 hp _ _ _
        · exact writeString_answer hi h2 h3 h6 hp _ _ _
      · rfl

/-! ## The steps in a state that is written out -/

/-- The flags. -/
structure Cfg where
  unbuffered : Bool
  pretty : Bool
  asWrapper : Bool

/-- The state with the writer that does not fail. -/
def Cfg.st (C : Cfg) (out : Bytes) (comma : Bool) (depth : Nat) (phase : Phase) (type : Option TypeDesc) (field : Option Bytes) : ToNormal :=
  ⟨⟨⟨out, []⟩, []⟩, comma, C.pretty, C.unbuffered, depth, field, C.asWrapper, none, phase, type, false⟩

variable (C : Cfg) (out : Bytes) (c : Bool) (d : Nat) (ph : Phase) (ty : Option TypeDesc) (f : Option Bytes)

theorem Cfg.well : Well sound (C.st out c d ph ty f) := well_iff.2 ⟨rfl, rfl, by intro k c; simp [Cfg.st]⟩

@[simp] theorem bind_mk (b : ToNormal) (k : ToNormal → Step) : Step.bind (b, none) k = k b := rfl
@[simp] theorem op_mk (b : ToNormal) (o : StreamOp) : Step.op (b, none) o = (b, o) := rfl
@[simp] theorem st_comma : (C.st out c d ph ty f).comma = c := rfl
@[simp] theorem st_depth : (C.st out c d ph ty f).depth = d := rfl
@[simp] theorem st_phase : (C.st out c d ph ty f).phase = ph := rfl
@[simp] theorem st_type : (C.st out c d ph ty f).type = ty := rfl
@[simp] theorem st_field : (C.st out c d ph ty f).field = f := rfl
@[simp] theorem st_wrapper : (C.st out c d ph ty f).asWrapper = C.asWrapper := rfl
@[simp] theorem set_st (g : ToNormal → ToNormal) : (C.st out c d ph ty f).set g = (g (C.st out c d ph ty f), none) := rfl

@[simp] theorem put_st (bs : Bytes) (m : String) : (C.st out c d ph ty f).put bs m = (C.st (out ++ bs) c d ph ty f, none) := by
  rcases C with ⟨u, p, w⟩
  cases u <;> rfl

@[simp] theorem newline_st : (C.st out c d ph ty f).newline = (C.st (out ++ nl C.pretty) c d ph ty f, none) := by
  rcases C with ⟨u, p, w⟩
  cases p
  · simp [newline, nl, Cfg.st]
  · rw [show (Cfg.st ⟨u, true, w⟩ out c d ph ty f).newline = (Cfg.st ⟨u, true, w⟩ out c d ph ty f).put [10] "writing newline" from rfl, put_st]
    rfl

theorem indentLoop_st (n : Nat) : ∀ out : Bytes, indentLoop n (C.st out c d ph ty f) =
    (C.st (out ++ (List.replicate n [32, 32]).flatten) c d ph ty f, none) := by
  induction n with
  | zero => simp [indentLoop]
  | succ n ih =>
    intro out
    rw [indentLoop, put_st, bind_mk, ih]
    simp [List.replicate_succ]

@[simp] theorem indent_st : (C.st out c d ph ty f).indent = (C.st (out ++ ind C.pretty d) c d ph ty f, none) := by
  rcases C with ⟨u, p, w⟩
  cases p
  · simp [indent, ind, Cfg.st]
  · rw [show (Cfg.st ⟨u, true, w⟩ out c d ph ty f).indent = indentLoop d (Cfg.st ⟨u, true, w⟩ out c d ph ty f) from rfl, indentLoop_st]
    rfl

@[simp] theorem dec_st : (C.st out c (d + 1) ph ty f).dec = (C.st out c d ph ty f, none) := rfl

/-- What `write_comma_if_pending` writes. -/
def lead (p c : Bool) : Bytes := if c then 44 :: nl p else []

@[simp] theorem writeComma_st : (C.st out c d ph ty f).writeComma = (C.st (out ++ lead C.pretty c) false d ph ty f, none) := by
  cases c
  · simp [lead, writeComma]
  · simp only [writeComma, st_comma, if_true, put_st, bind_mk, newline_st, lead]
    simp [Cfg.st]

@[simp] theorem flushLong_st : (C.st out c d ph ty f).flushLong = (C.st out c d ph ty f, none) := by
  rcases C with ⟨u, p, w⟩
  cases u <;> rfl

/-- The quotes. -/
def quotes (q : Bool) : Bytes := if q then [34] else []

@[simp] theorem quote_st (q : Bool) (m : String) : (C.st out c d ph ty f).quote q m = (C.st (out ++ quotes q) c d ph ty f, none) := by
  cases q
  · simp [quote, quotes]
  · simp only [quote, if_true, put_st]
    rfl

theorem string_st (q : Bool) (body : Bytes) : (C.st out c d ph ty f).string q body =
    (C.st (out ++ (lead C.pretty c ++ (quotes q ++ (body ++ quotes q)))) true d ph ty f, none) := by
  have : ∀ o c x, ({ C.st o c d ph ty f with d := { (C.st o c d ph ty f).d with w := ⟨x, []⟩ } } : ToNormal) = C.st x c d ph ty f := fun _ _ _ => rfl
  simp only [string, writeComma_st, bind_mk, quote_st, this, flushLong_st, set_st]
  simp [Cfg.st]

theorem stringAt_st (q : Bool) (body : Bytes) : stringAt q (.atom (quoted body)) (C.st out c d ph ty f) =
    (C.st (out ++ (lead C.pretty c ++ (quotes q ++ (body ++ quotes q)))) true d ph ty f, .valueIsConsumed) := by
  simp [stringAt, Val.text, quoted, string_st]

theorem rootObjectBegin_st : (C.st out c d ph ty f).rootObjectBegin = (C.st (out ++ 123 :: nl C.pretty) c 1 ph ty f, none) := by
  simp only [rootObjectBegin, put_st, bind_mk, newline_st, set_st]
  simp [Cfg.st]

theorem rootObjectEnd_st : (C.st out c d ph ty f).rootObjectEnd = (C.st (out ++ (nl C.pretty ++ [125, 10])) false 0 .field ty f, none) := by
  simp only [rootObjectEnd, put_st, bind_mk, newline_st, set_st]
  simp [Cfg.st]

theorem fieldKey_st (k : Bytes) : ({ C.st out c d ph ty f with field := some k } : ToNormal).fieldKey =
    (C.st (out ++ (lead C.pretty c ++ (ind C.pretty d ++ 34 :: (k ++ [34, 58])))) false d .typeKey ty (some k), none) := by
  rw [show ({ C.st out c d ph ty f with field := some k } : ToNormal) = C.st out c d ph ty (some k) from rfl]
  unfold fieldKey
  simp only [st_field, writeComma_st, bind_mk, indent_st, put_st, set_st]
  simp [Cfg.st]

theorem setBegin_st (t : TypeDesc) (m : String) : (C.st out c d ph ty f).setBegin t m = (C.st (out ++ [91]) false d .value (some t) f, none) := by
  simp only [setBegin, put_st, bind_mk, set_st]
  simp [Cfg.st]

theorem listBegin_st : (C.st out c d ph ty f).listBegin = (C.st (out ++ (lead C.pretty c ++ [91])) false d .typeKey (some .l) f, none) := by
  simp only [listBegin, writeComma_st, put_st, bind_mk, set_st]
  simp [Cfg.st]

theorem mapBegin_st : (C.st out c d ph ty f).mapBegin =
    (C.st (out ++ (lead C.pretty c ++ 123 :: nl C.pretty)) false (d + 1) .field (some .m) f, none) := by
  simp only [mapBegin, writeComma_st, put_st, newline_st, bind_mk, set_st]
  simp [Cfg.st]

theorem listEnd_st : (C.st out c d .typeKey ty f).listEnd = (C.st (out ++ [93]) true d .value none f, none) := by
  simp only [listEnd, st_phase, ne_eq, not_true_eq_false, if_false, put_st, bind_mk, set_st]
  simp [Cfg.st]

theorem setEnd_st : (C.st out c d ph ty f).setEnd = (C.st (out ++ [93]) true d .value none f, none) := by
  simp only [setEnd, put_st, bind_mk, set_st]
  simp [Cfg.st]

theorem mapEnd_st : (C.st out c (d + 1) ph ty f).mapEnd =
    (C.st (out ++ (nl C.pretty ++ (ind C.pretty d ++ [125]))) true d .consumed none f, none) := by
  simp only [mapEnd, newline_st, dec_st, indent_st, put_st, bind_mk, set_st]
  simp [Cfg.st]

theorem mapEndInArray_st : (C.st out c (d + 1) ph ty f).mapEndInArray =
    (C.st (out ++ (nl C.pretty ++ (ind C.pretty d ++ [125]))) true d .typeKey none f, none) := by
  simp only [mapEndInArray, mapEnd_st, bind_mk, set_st]
  simp [Cfg.st]

theorem goto_st (ph' : Phase) : goto ph' (C.st out c d ph ty f) = (C.st out c d ph' ty f, none) := rfl

/-! ## The text of items and members -/

/-- What is written for the elements of a set. -/
def elemsOut (p : Bool) (text : Bytes → Bytes) (c : Bool) (es : List Elem) : Bytes :=
  if c then (elemsPlain p text (nl p) es).textMore else (elemsPlain p text [] es).text

theorem elemsOut_nil (p : Bool) (text : Bytes → Bytes) (c : Bool) : elemsOut p text c [] = [] := by
  cases c <;> rfl

theorem elemsOut_cons (p : Bool) (text : Bytes → Bytes) (c : Bool) (e : Elem) (es : List Elem) :
    elemsOut p text c (e :: es) = lead p c ++ (text e.body ++ elemsOut p text true es) := by
  cases c <;> simp [elemsOut, elemsPlain, Items.text, Items.textMore, Val.text, lead]

/-- What is written for the items of a list. -/
def itemsOut (p : Bool) (d : Nat) (c : Bool) (is : DItems) : Bytes :=
  if c then (is.plain p d (nl p)).textMore else (is.plain p d []).text

theorem itemsOut_nil (p : Bool) (d : Nat) (c : Bool) : itemsOut p d c .nil = [] := by
  cases c <;> simp [itemsOut, DItems.plain, Items.text, Items.textMore]

theorem itemsOut_cons (p : Bool) (d : Nat) (c : Bool) (b a : Bytes) (v : DVal) (more : DItems) :
    itemsOut p d c (.cons b v a more) = lead p c ++ ((v.plain p d).text ++ itemsOut p d true more) := by
  cases c <;> simp [itemsOut, DItems.plain, Items.text, Items.textMore, lead]

theorem close_nil (close : Bytes) : DMembers.close close .nil = close := rfl
theorem close_cons (close b k m m' a : Bytes) (v : DVal) (more : DMembers) : DMembers.close close (.cons b k m m' v a more) = [] := rfl
theorem close_empty (ms : DMembers) : ms.close [] = [] := by cases ms <;> rfl

theorem close_members (p : Bool) (d : Nat) (close : Bytes) : ∀ (ms : DMembers),
    ms.close close ++ (ms.plain p d close).textMore = (ms.plain p d []).textMore ++ close
  | .nil => by simp [close_nil, DMembers.plain, Members.textMore]
  | .cons _ k _ _ v _ more => by
    have := close_members p d close more
    simp [close_cons, DMembers.plain, Members.textMore, this, close_empty]

/-- What is written for the members of an object. -/
def membersOut (p : Bool) (d : Nat) (c : Bool) : DMembers → Bytes
  | .nil => []
  | .cons _ k _ _ v _ more => lead p c ++ (ind p d ++ 34 :: (k ++ 34 :: 58 :: ((v.plain p d).text ++ (more.plain p d []).textMore)))

theorem membersOut_true (p : Bool) (d : Nat) (ms : DMembers) : membersOut p d true ms = (ms.plain p d []).textMore := by
  cases ms with
  | nil => simp [membersOut, DMembers.plain, Members.textMore]
  | cons b k m m' v a more => simp [membersOut, lead, DMembers.plain, Members.textMore, close_empty]

/-- The text of the members between braces. -/
theorem object_text (p : Bool) (d : Nat) (close : Bytes) (ms : DMembers) :
    123 :: (nl p ++ (membersOut p d false ms ++ (close ++ [125]))) = (Val.obj (ms.close (nl p ++ close)) (ms.plain p d close)).text := by
  cases ms with
  | nil => simp [Val.text, Members.text, membersOut, close_nil, DMembers.plain]
  | cons b k m m' v a more =>
    have := close_members p d close more
    have h2 : more.close close ++ ((more.plain p d close).textMore ++ [125]) = (more.plain p d []).textMore ++ (close ++ [125]) := by
      rw [← List.append_assoc, this]
      simp
    simp [Val.text, Members.text, membersOut, lead, close_cons, DMembers.plain, h2]

/-! ## The induction over documents -/

/-- The phase behind a value. -/
def after (parent : Bytes) : Phase := if parent = nameArray then .typeKey else .consumed

/-- The handler as it is used by `scan_docs_on`. -/
noncomputable abbrev guarded : Handler ToNormal := guardH (Well sound) handler

/-- No comma is pending if there was none and nothing was written. -/
def comma' (c : Bool) (none : Bool) : Bool := if none then c else true

variable {C} (R : Room)

/-- The object around a value. -/
theorem wrap_scan {sp : Sp} {name parent : Bytes} {v : Val} {r : List Bytes} {out out' : Bytes} {c : Bool} {d : Nat} {ty : Option TypeDesc}
    {f f' : Option Bytes} {b : ToNormal} (hr : r ≠ []) (hd : d ≠ 0) (hty : ty ≠ some .l) (hfit : R.Fits (parent :: r) name)
    (h1 : guarded.around .none (name :: parent :: r) v (v.scan guarded R (name :: parent :: r)) (C.st out c d .typeKey ty f) = .done b)
    (h2 : guarded.end .none (name :: parent :: r) b = .done (C.st out' true d (after parent) none f')) :
    (sp.wrap name v).scan guarded R (parent :: r) (C.st out c d .typeKey ty f) = .done (C.st out' true d (after parent) none f') := by
  have hs : guarded.start .object (parent :: r) (sp.wrap name v) (C.st out c d .typeKey ty f) = (C.st out c d .typeKey ty f, .none) := by
    rw [guardH_start (Cfg.well C _ _ _ _ _ _)]
    simp [handler, hd, hty]
  have he : guarded.finish .object (parent :: r) (C.st out' true d (after parent) none f') = (C.st out' true d (after parent) none f', none) := by
    rw [guardH_finish (Cfg.well C _ _ _ _ _ _)]
    simp [handler, findEnd, ended, hr]
  unfold Sp.wrap at hs ⊢
  simp only [Val.scan, Members.scan, Handler.around, hs, if_pos hfit]
  simp only [Handler.around] at h1
  rw [h1]
  simp only [Out.bind, h2]
  simp only [Handler.end, he]

/-- The end of the type of a value that is not a map. -/
theorem end_value {name parent : Bytes} {r : List Bytes} (out : Bytes) (c : Bool) (d : Nat) (ty : Option TypeDesc) (f : Option Bytes) :
    guarded.end .none (name :: parent :: r) (C.st out c d .value ty f) = .done (C.st out c d (after parent) ty f) := by
  unfold Handler.end
  rw [guardH_finish (Cfg.well C _ _ _ _ _ _)]
  simp only [handler, findEnd, findEndKey, st_phase, ended, List.head?_cons, Option.some.injEq, goto_st, after]

theorem elems_scan {t : TypeDesc} {text : Bytes → Bytes} (ht : t = .ss ∧ text = quoted ∨ t = .ns ∧ text = id) (path : List Bytes) (d : Nat) (f : Option Bytes) :
    ∀ (es : List Elem) (out : Bytes) (c : Bool),
    (elemsJson es).scan guarded R (nameArray :: path) (C.st out c d .value (some t) f) =
      .done (C.st (out ++ elemsOut C.pretty text c es) (comma' c es.isEmpty) d .value (some t) f)
  | [], out, c => by simp [elemsJson, Items.scan, elemsOut_nil, comma']
  | e :: es, out, c => by
    have hs : guarded.start .atom (nameArray :: path) (.atom (quoted e.body)) (C.st out c d .value (some t) f) =
        (C.st (out ++ (lead C.pretty c ++ text e.body)) true d .value (some t) f, .valueIsConsumed) := by
      rw [guardH_start (Cfg.well C _ _ _ _ _ _)]
      rcases ht with ⟨rfl, rfl⟩ | ⟨rfl, rfl⟩
      · simp only [handler, st_phase, st_type, List.head?_cons, ne_eq, not_true_eq_false, if_false, true_or, and_self, if_true, stringAt_st]
        simp [quotes, quoted]
      · simp only [handler, st_phase, st_type, List.head?_cons, ne_eq, not_true_eq_false, if_false, or_true, and_self, if_true, stringAt_st, Option.some.injEq,
          reduceCtorEq]
        simp [quotes]
    have ih := elems_scan ht path d f es (out ++ (lead C.pretty c ++ text e.body)) true
    simp only [elemsJson, Items.scan, Val.scan, Handler.around, hs, Out.bind, ih, elemsOut_cons]
    simp [comma']

theorem start_key {parent : Bytes} {r : List Bytes} (k : Bytes) (v : Val) (out : Bytes) (c : Bool) (d : Nat) (ty : Option TypeDesc) (f : Option Bytes) :
    guarded.start .none (k :: parent :: r) v (C.st out c d .typeKey ty f) = typeAt v (C.st out c d .typeKey ty (some k)) := by
  rw [guardH_start (Cfg.well C _ _ _ _ _ _)]
  rfl

theorem type_string (k body out : Bytes) (hk : k = [83] ∨ k = [66]) (c : Bool) (d : Nat) (ty : Option TypeDesc) :
    typeAt (.atom (quoted body)) (C.st out c d .typeKey ty (some k)) =
      (C.st (out ++ (lead C.pretty c ++ quoted body)) true d .value none (some k), .valueIsConsumed) := by
  simp only [typeAt, st_field, if_pos hk, stringAt_st, Prod.map]
  simp [Cfg.st, quotes, quoted]

theorem type_number (body out : Bytes) (c : Bool) (d : Nat) (ty : Option TypeDesc) :
    typeAt (.atom (quoted body)) (C.st out c d .typeKey ty (some [78])) =
      (C.st (out ++ (lead C.pretty c ++ body)) true d .value none (some [78]), .valueIsConsumed) := by
  simp only [typeAt, st_field]
  rw [if_neg (by simp), if_pos trivial]
  simp only [stringAt_st, Prod.map]
  simp [Cfg.st, quotes]

theorem type_bool (x : Bool) (out : Bytes) (c : Bool) (d : Nat) (ty : Option TypeDesc) :
    typeAt (.atom (boolText x)) (C.st out c d .typeKey ty (some [66, 79, 79, 76])) =
      (C.st (out ++ (lead C.pretty c ++ boolText x)) true d .value none (some [66, 79, 79, 76]), .valueIsConsumed) := by
  have ho : boolOutput ((boolText x).headD 0) = (boolText x, none) := by cases x <;> rfl
  simp only [typeAt, st_field]
  rw [if_neg (by simp), if_neg (by simp), if_pos trivial]
  simp only [boolAt, Val.text, ho, writeComma_st, bind_mk, put_st, set_st, Prod.map]
  simp [Cfg.st]

theorem type_null (out : Bytes) (c : Bool) (d : Nat) (ty : Option TypeDesc) :
    typeAt (.atom (boolText true)) (C.st out c d .typeKey ty (some [78, 85, 76, 76])) =
      (C.st (out ++ (lead C.pretty c ++ [110, 117, 108, 108])) true d .value none (some [78, 85, 76, 76]), .valueIsConsumed) := by
  have ho : nullOutput ((boolText true).headD 0) = ([110, 117, 108, 108], none) := rfl
  simp only [typeAt, st_field]
  rw [if_neg (by simp), if_neg (by simp), if_neg (by simp), if_pos trivial]
  simp only [boolAt, Val.text, ho, writeComma_st, bind_mk, put_st, set_st, Prod.map]
  simp [Cfg.st]

theorem type_set (k : Bytes) (v : Val) (t : TypeDesc) (hk : t = .ss ∧ (k = [83, 83] ∨ k = [66, 83]) ∨ t = .ns ∧ k = [78, 83])
    (out : Bytes) (d : Nat) (ty : Option TypeDesc) :
    typeAt v (C.st out false d .typeKey ty (some k)) = (C.st (out ++ [91]) false d .value (some t) (some k), .none) := by
  rcases hk with ⟨rfl, rfl | rfl⟩ | ⟨rfl, rfl⟩ <;> simp [typeAt, setBegin_st]

theorem set_plain {t : TypeDesc} {text : Bytes → Bytes} {k parent : Bytes} {r : List Bytes} {out : Bytes} {d : Nat} {ty : Option TypeDesc} {f : Option Bytes}
    (sp : Sp) (w : Bytes) (es : List Elem)
    (hk : t = .ss ∧ (k = [83, 83] ∨ k = [66, 83]) ∨ t = .ns ∧ k = [78, 83])
    (ht : t = .ss ∧ text = quoted ∨ t = .ns ∧ text = id) (hr : r ≠ []) (hd : d ≠ 0) (hty : ty ≠ some .l)
    (hf : R.Fits (parent :: r) k) (hf' : R.Fits (k :: parent :: r) nameArray) :
    (sp.wrap k (.arr w (elemsJson es))).scan guarded R (parent :: r) (C.st out false d .typeKey ty f) =
      .done (C.st (out ++ (lead C.pretty false ++ (Val.arr [] (elemsPlain C.pretty text [] es)).text)) true d (after parent) none (some k)) := by
  have hel := elems_scan (C := C) R ht (k :: parent :: r) d (some k) es (out ++ [91]) false
  refine wrap_scan R hr hd hty hf (b := C.st (out ++ (91 :: ((elemsPlain C.pretty text [] es).text ++ [93]))) true d .value none (some k)) ?_ ?_
  · simp only [Handler.around, start_key]
    have h2 : guarded.start .array (k :: parent :: r) (.arr w (elemsJson es)) (C.st (out ++ [91]) false d .value (some t) (some k)) =
        (C.st (out ++ [91]) false d .value (some t) (some k), .none) := by
      rw [guardH_start (Cfg.well C _ _ _ _ _ _)]
      rcases ht with ⟨rfl, -⟩ | ⟨rfl, -⟩ <;> rfl
    rw [type_set _ _ _ hk]
    simp only [Val.scan, Handler.around, h2, if_pos hf', hel, Out.bind, Handler.end, guardH_finish (Cfg.well C _ _ _ _ _ _)]
    simp only [handler, findEnd, st_phase, reduceCtorEq, if_false, if_true, ended, setEnd_st]
    simp [elemsOut]
  · rw [end_value]
    simp [lead, Val.text]

mutual
theorem value_plain : ∀ (V : DVal) (parent : Bytes) (r : List Bytes) (out : Bytes) (c : Bool) (d : Nat) (ty : Option TypeDesc) (f : Option Bytes),
    r ≠ [] → d ≠ 0 → ty ≠ some .l → V.json.Fit R (parent :: r) → V.Names (· ≠ nameArray) → V.Orderly → (c = true → V.isSet = false) →
    ∃ f', V.json.scan guarded R (parent :: r) (C.st out c d .typeKey ty f) =
      .done (C.st (out ++ (lead C.pretty c ++ (V.plain C.pretty d).text)) true d (after parent) none f')
  | .string sp bin body, parent, r, out, c, d, ty, f, hr, hd, hty, hf, _, _, _ => by
    simp only [DVal.json, Sp.wrap, Val.Fit, Members.Fit] at hf
    refine ⟨some (if bin then [66] else [83]), wrap_scan R hr hd hty hf.1 (by
      simp only [Handler.around, start_key]
      rw [type_string _ _ _ (by cases bin <;> simp)]
      simp only [DVal.plain, Val.text]) (end_value _ _ _ _ _)⟩
  | .number sp body, parent, r, out, c, d, ty, f, hr, hd, hty, hf, _, _, _ => by
    simp only [DVal.json, Sp.wrap, Val.Fit, Members.Fit] at hf
    refine ⟨some [78], wrap_scan R hr hd hty hf.1 (by simp only [Handler.around, start_key, type_number, DVal.plain, Val.text]) (end_value _ _ _ _ _)⟩
  | .bool sp x, parent, r, out, c, d, ty, f, hr, hd, hty, hf, _, _, _ => by
    simp only [DVal.json, Sp.wrap, Val.Fit, Members.Fit] at hf
    refine ⟨some [66, 79, 79, 76], wrap_scan R hr hd hty hf.1 (by simp only [Handler.around, start_key, type_bool, DVal.plain, Val.text]) (end_value _ _ _ _ _)⟩
  | .null sp, parent, r, out, c, d, ty, f, hr, hd, hty, hf, _, _, _ => by
    simp only [DVal.json, Sp.wrap, Val.Fit, Members.Fit] at hf
    refine ⟨some [78, 85, 76, 76], wrap_scan R hr hd hty hf.1 (by simp only [Handler.around, start_key, type_null, DVal.plain, Val.text]) (end_value _ _ _ _ _)⟩
  | .strings sp bin w es, parent, r, out, c, d, ty, f, hr, hd, hty, hf, _, _, hs => by
    simp only [DVal.json, Sp.wrap, Val.Fit, Members.Fit] at hf
    have hc : c = false := by cases c <;> simp [DVal.isSet] at hs ⊢
    subst hc
    refine ⟨some (if bin then [66, 83] else [83, 83]), set_plain R (t := .ss) sp w es (.inl ⟨rfl, by cases bin <;> simp⟩) (.inl ⟨rfl, rfl⟩) hr hd hty hf.1 hf.2.1.1⟩
  | .numbers sp w es, parent, r, out, c, d, ty, f, hr, hd, hty, hf, _, _, hs => by
    simp only [DVal.json, Sp.wrap, Val.Fit, Members.Fit] at hf
    have hc : c = false := by cases c <;> simp [DVal.isSet] at hs ⊢
    subst hc
    exact ⟨some [78, 83], set_plain R (t := .ns) sp w es (.inr ⟨rfl, rfl⟩) (.inr ⟨rfl, rfl⟩) hr hd hty hf.1 hf.2.1.1⟩
  | .list sp w is, parent, r, out, c, d, ty, f, hr, hd, hty, hf, hn, ho, _ => by
    simp only [DVal.json, Sp.wrap, Val.Fit, Members.Fit] at hf
    simp only [DVal.Names] at hn
    simp only [DVal.Orderly] at ho
    obtain ⟨c', ty', f', h⟩ := items_plain is ([76] :: parent :: r) (out ++ (lead C.pretty c ++ [91])) false d none (some [76]) (by simp) hd (by simp) hf.2.1.2 hn ho
    refine ⟨f', ?_⟩
    simp only [DVal.json, DVal.plain]
    refine wrap_scan R hr hd hty hf.1 (b := C.st (out ++ (lead C.pretty c ++ (91 :: ((is.plain C.pretty d []).text ++ [93])))) true d .value none f') ?_ ?_
    · simp only [Handler.around, start_key]
      have h1 : typeAt (.arr w is.json) (C.st out c d .typeKey ty (some [76])) =
          (C.st (out ++ (lead C.pretty c ++ [91])) false d .typeKey (some .l) (some [76]), .none) := by
        simp [typeAt, listBegin_st]
      have h2 : guarded.start .array ([76] :: parent :: r) (.arr w is.json)
          (C.st (out ++ (lead C.pretty c ++ [91])) false d .typeKey (some .l) (some [76])) =
          (C.st (out ++ (lead C.pretty c ++ [91])) false d .typeKey none (some [76]), .none) := by
        rw [guardH_start (Cfg.well C _ _ _ _ _ _)]
        rfl
      rw [h1]
      simp only [Val.scan, Handler.around, h2, if_pos hf.2.1.1, h, Out.bind, Handler.end, guardH_finish (Cfg.well C _ _ _ _ _ _)]
      simp only [handler, findEnd, st_phase, if_true, ended, listEnd_st]
      simp [itemsOut]
    · rw [end_value]
      simp [Val.text]
  | .map sp w ms, parent, r, out, c, d, ty, f, hr, hd, hty, hf, hn, ho, _ => by
    simp only [DVal.json, Sp.wrap, Val.Fit, Members.Fit] at hf
    simp only [DVal.Names] at hn
    simp only [DVal.Orderly] at ho
    obtain ⟨c', ty', f', -, h⟩ := members_plain ms ([77] :: parent :: r) (out ++ (lead C.pretty c ++ 123 :: nl C.pretty)) false (d + 1) (some .m) (some [77]) (by simp)
      (by simp [nameArray]) (by simp) (by simp) (by simp [nameTop]) hf.2.1 hn ho
    refine ⟨f', ?_⟩
    simp only [DVal.json, DVal.plain]
    refine wrap_scan R hr hd hty hf.1 (b := C.st (out ++ (lead C.pretty c ++ 123 :: (nl C.pretty ++ membersOut C.pretty (d + 1) false ms))) c' (d + 1) .field ty' f') ?_ ?_
    · simp only [Handler.around, start_key]
      have h1 : typeAt (.obj w ms.json) (C.st out c d .typeKey ty (some [77])) =
          (C.st (out ++ (lead C.pretty c ++ 123 :: nl C.pretty)) false (d + 1) .field (some .m) (some [77]), .none) := by
        simp [typeAt, mapBegin_st]
      have h2 : guarded.start .object ([77] :: parent :: r) (.obj w ms.json)
          (C.st (out ++ (lead C.pretty c ++ 123 :: nl C.pretty)) false (d + 1) .field (some .m) (some [77])) =
          (C.st (out ++ (lead C.pretty c ++ 123 :: nl C.pretty)) false (d + 1) .field (some .m) (some [77]), .none) := by
        rw [guardH_start (Cfg.well C _ _ _ _ _ _)]
        simp [handler]
      rw [h1]
      simp only [Val.scan, Handler.around, h2, h, Out.bind, Handler.end, guardH_finish (Cfg.well C _ _ _ _ _ _)]
      simp [handler, findEnd, ended]
    · unfold Handler.end
      rw [guardH_finish (Cfg.well C _ _ _ _ _ _)]
      have hep : endParent [77] (parent :: r) = some parent := by simp [endParent, nameItem]
      simp only [handler, findEnd, findEndKey, st_phase, ended, hep, Option.some.injEq]
      rw [if_neg (by simp [nameItem])]
      have := object_text C.pretty (d + 1) (nl C.pretty ++ ind C.pretty d) ms
      rw [← this]
      by_cases hp : parent = nameArray
      · simp [hp, mapEndInArray_st, after]
      · simp [hp, mapEnd_st, after]
theorem items_plain : ∀ (is : DItems) (path : List Bytes) (out : Bytes) (c : Bool) (d : Nat) (ty : Option TypeDesc) (f : Option Bytes),
    path ≠ [] → d ≠ 0 → ty ≠ some .l → is.json.Fit R (nameArray :: path) → is.Names (· ≠ nameArray) → is.Orderly c →
    ∃ c' ty' f', is.json.scan guarded R (nameArray :: path) (C.st out c d .typeKey ty f) =
      .done (C.st (out ++ itemsOut C.pretty d c is) c' d .typeKey ty' f')
  | .nil, path, out, c, d, ty, f, _, _, _, _, _, _ => ⟨c, ty, f, by simp [DItems.json, Items.scan, itemsOut_nil]⟩
  | .cons b v a more, path, out, c, d, ty, f, hp, hd, hty, hf, hn, ho => by
    simp only [DItems.json, Items.Fit] at hf
    simp only [DItems.Names] at hn
    simp only [DItems.Orderly] at ho
    obtain ⟨f', h⟩ := value_plain v nameArray path out c d ty f hp hd hty hf.1 hn.1 ho.2.1 ho.1
    obtain ⟨c', ty', f'', h'⟩ := items_plain more path (out ++ (lead C.pretty c ++ (v.plain C.pretty d).text)) true d none f' hp hd (by simp) hf.2 hn.2 ho.2.2
    refine ⟨c', ty', f'', ?_⟩
    simp only [DItems.json, Items.scan, h, Out.bind, after, if_true, h', itemsOut_cons]
    simp only [List.append_assoc]
theorem members_plain : ∀ (ms : DMembers) (path : List Bytes) (out : Bytes) (c : Bool) (d : Nat) (ty : Option TypeDesc) (f : Option Bytes),
    path ≠ [] → path.head? ≠ some nameArray → d ≠ 0 → ty ≠ some .l → (C.asWrapper = true → path.head? = some nameTop → nameItem ∉ ms.keys) →
    ms.json.Fit R path → ms.Names (· ≠ nameArray) → ms.Orderly →
    ∃ c' ty' f', ty' ≠ some .l ∧ ms.json.scan guarded R path (C.st out c d .field ty f) =
      .done (C.st (out ++ membersOut C.pretty d c ms) c' d .field ty' f')
  | .nil, path, out, c, d, ty, f, _, _, _, h, _, _, _, _ => ⟨c, ty, f, h, by simp [DMembers.json, Members.scan, membersOut]⟩
  | .cons b k m m' v a more, path, out, c, d, ty, f, hp, hpa, hd, hty, hi, hf, hn, ho => by
    simp only [DMembers.json, Members.Fit] at hf
    simp only [DMembers.Names] at hn
    simp only [DMembers.Orderly] at ho
    simp only [DMembers.keys] at hi
    obtain ⟨f', h⟩ := value_plain v k path (out ++ (lead C.pretty c ++ (ind C.pretty d ++ 34 :: (k ++ [34, 58])))) false d ty (some k) hp hd hty hf.2.1 hn.2.1 ho.1
      (by simp)
    obtain ⟨c', ty', f'', ht', h'⟩ := members_plain more path (out ++ (lead C.pretty c ++ (ind C.pretty d ++ 34 :: (k ++ [34, 58]))) ++ (lead C.pretty false ++ (v.plain C.pretty d).text))
      true d none f' hp hpa hd (by simp) (fun h1 h2 h3 => hi h1 h2 (by simp [h3])) hf.2.2 hn.2.2 ho.2
    refine ⟨c', ty', f'', ht', ?_⟩
    have hs : guarded.start .none (k :: path) v.json (C.st out c d .field ty f) =
        (C.st (out ++ (lead C.pretty c ++ (ind C.pretty d ++ 34 :: (k ++ [34, 58])))) false d .typeKey ty (some k), .none) := by
      rw [guardH_start (Cfg.well C _ _ _ _ _ _)]
      have hno : ¬ (k = nameItem ∧ (C.st out c d .field ty f).asWrapper = true ∧ path.head? = some nameTop) :=
        fun ⟨h1, h2, h3⟩ => hi h2 h3 (by simp [h1])
      simp only [handler, st_phase]
      rw [if_neg hno]
      exact congrArg (fun s : Step => s.op .none) (fieldKey_st C _ _ _ _ _ _ k)
    have hfin : ∀ o c ty f, guarded.end .none (k :: path) (C.st o c d .consumed ty f) = .done (C.st o c d .field ty f) := by
      intro o c ty f
      unfold Handler.end
      rw [guardH_finish (Cfg.well C _ _ _ _ _ _)]
      simp only [handler, findEnd, findEndKey, st_phase, ended, if_neg hpa, goto_st]
    simp only [DMembers.json, Members.scan, if_pos hf.1, Handler.around, hs, h, Out.bind, after, if_neg hn.1, hfin, h', membersOut_true]
    simp [lead, membersOut]
end

/-! ## Documents -/

theorem doc_plain (d : DDoc) (out : Bytes) (ty : Option TypeDesc) (f : Option Bytes) (hty : ty ≠ some .l) (hf : d.json.Fit R [nameTop])
    (hn : d.members.Names (· ≠ nameArray)) (ho : d.members.Orderly) (hr : d.Reads C.asWrapper) :
    ∃ ty' f', ty' ≠ some .l ∧ d.json.scan guarded R [nameTop] (C.st out false 0 .field ty f) =
      .done (C.st (out ++ ((d.plain C.pretty).text ++ [10])) false 0 .field ty' f') := by
  have hb : ∀ v, guarded.start .object [nameTop] v (C.st out false 0 .field ty f) = (C.st (out ++ 123 :: nl C.pretty) false 1 .field ty f, .none) := by
    intro v
    rw [guardH_start (Cfg.well C _ _ _ _ _ _)]
    simp only [handler, st_depth, if_true]
    exact congrArg (fun s : Step => s.op .none) (rootObjectBegin_st C _ _ _ _ _ _)
  have he : ∀ o c ty f, guarded.finish .object [nameTop] (C.st o c 1 .field ty f) = (C.st (o ++ (nl C.pretty ++ [125, 10])) false 0 .field ty f, none) := by
    intro o c ty f
    rw [guardH_finish (Cfg.well C _ _ _ _ _ _)]
    simp [handler, findEnd, ended, rootObjectEnd_st]
  cases d with
  | bare w ms =>
    simp only [DDoc.json, Val.Fit] at hf
    obtain ⟨c', ty', f', ht, h⟩ := members_plain (C := C) R ms [nameTop] (out ++ 123 :: nl C.pretty) false 1 ty f (by simp) (by simp [nameTop, nameArray])
      (by simp) hty (fun h _ => hr h) hf hn ho
    refine ⟨ty', f', ht, ?_⟩
    simp only [DDoc.json, DDoc.plain, Val.scan, Handler.around, hb, h, Out.bind, Handler.end, he]
    rw [← object_text C.pretty 1 (nl C.pretty) ms]
    simp
  | item sp w ms =>
    simp only [DDoc.json, Sp.wrap, Val.Fit, Members.Fit] at hf
    obtain ⟨c', ty', f', ht, h⟩ := members_plain (C := C) R ms [nameItem, nameTop] (out ++ 123 :: nl C.pretty) false 1 ty f (by simp) (by simp [nameItem, nameArray])
      (by simp) hty (by simp [nameItem, nameTop]) hf.2.1 hn ho
    refine ⟨ty', f', ht, ?_⟩
    have h1 : ∀ v o, guarded.start .none [nameItem, nameTop] v (C.st o false 1 .field ty f) = (C.st o false 1 .field ty f, .none) := by
      intro v o
      rw [guardH_start (Cfg.well C _ _ _ _ _ _)]
      have hw : C.asWrapper = true := hr
      simp [handler, hw]
    have h2 : ∀ v o, guarded.start .object [nameItem, nameTop] v (C.st o false 1 .field ty f) = (C.st o false 1 .field ty f, .none) := by
      intro v o
      rw [guardH_start (Cfg.well C _ _ _ _ _ _)]
      simp [handler]
    have h3 : ∀ o c ty f, guarded.finish .object [nameItem, nameTop] (C.st o c 1 .field ty f) = (C.st o c 1 .field ty f, none) := by
      intro o c ty f
      rw [guardH_finish (Cfg.well C _ _ _ _ _ _)]
      simp [handler, findEnd, ended]
    have h4 : ∀ o c ty f, guarded.finish .none [nameItem, nameTop] (C.st o c 1 .field ty f) = (C.st o c 1 .field ty f, none) := by
      intro o c ty f
      rw [guardH_finish (Cfg.well C _ _ _ _ _ _)]
      have hw : C.asWrapper = true := hr
      simp [handler, findEnd, findEndKey, ended, hw]
    rw [show ([73, 116, 101, 109] : Bytes) = nameItem from rfl] at hf
    simp only [DDoc.json, DDoc.plain, Sp.wrap, Val.scan, Members.scan]
    rw [show ([73, 116, 101, 109] : Bytes) = nameItem from rfl]
    simp only [Handler.around, hb, if_pos hf.1, h1, h2, h, Out.bind, Handler.end, h3, h4, he]
    rw [← object_text C.pretty 1 (nl C.pretty) ms]
    simp

theorem docs_plain : ∀ (ds : DDocs) (out : Bytes) (ty : Option TypeDesc) (f : Option Bytes), ty ≠ some .l → Docs.Fit R [nameTop] ds.json →
    (∀ d ∈ ds, d.2.members.Names (· ≠ nameArray)) → (∀ d ∈ ds, d.2.members.Orderly) → (∀ d ∈ ds, d.2.Reads C.asWrapper) →
    ∃ ty' f', Docs.scan guarded R [nameTop] ds.json (C.st out false 0 .field ty f) = .done (C.st (out ++ DDocs.plain C.pretty ds) false 0 .field ty' f')
  | [], out, ty, f, _, _, _, _, _ => ⟨ty, f, by simp [DDocs.json, Docs.scan, DDocs.plain]⟩
  | (b, d) :: ds, out, ty, f, hty, hf, hn, ho, hr => by
    obtain ⟨ty', f', ht, h⟩ := doc_plain (C := C) R d out ty f hty hf.1 (hn (b, d) (by simp)) (ho (b, d) (by simp)) (hr (b, d) (by simp))
    obtain ⟨ty'', f'', h'⟩ := docs_plain ds (out ++ ((d.plain C.pretty).text ++ [10])) ty' f' ht hf.2
      (fun x hx => hn x (by simp [hx])) (fun x hx => ho x (by simp [hx])) (fun x hx => hr x (by simp [hx]))
    refine ⟨ty'', f'', ?_⟩
    simp only [DDocs.json, List.map_cons, Docs.scan, h, Out.bind]
    unfold DDocs.json at h'
    rw [h']
    simp [DDocs.plain]

end ToNormal

/-- Property C49. From a stream of items in DynamoDB JSON `convert_ddb_to_normal` writes each of them as plain JSON, followed by a
newline; it returns without an error. Indentation and flushing are as asked for; if the wrapper mode is asked for, an item may be in an
object `{"Item": ...}`. `M`, `L` and `F` say how the input is delivered and how large the buffer is, as in C31.

The full statement is without the conditions `hn` (no field is named `#array`) and `ho` (in a list a set may only be the first item). It
is false: `C49_array_field` and `C49_set_in_list`. The conditions on the input that are left in `Inv` and `Meets` are those of C31. -/
theorem C49_output_partial (M : Mode) (L F : Nat) (reader : Reader) (rb cb : Bytes) (out : Bytes) (pretty unbuffered asWrapper : Bool) (ds : DDocs) (tail : Bytes)
    (hi : Inv M L F (.new reader rb)) (hcb : 277 ≤ cb.length) (hr : reader.pending = Docs.text ds.json tail) (hm : Docs.Meets (rules M L) ds.json tail)
    (hf : Docs.Fit ⟨cb.length - 272, 68, 68⟩ [nameTop] ds.json) (hn : ∀ d ∈ ds, d.2.members.Names (· ≠ nameArray)) (ho : ∀ d ∈ ds, d.2.members.Orderly)
    (hw : ∀ d ∈ ds, d.2.Reads asWrapper) (turns : Nat) (ht : ds.length + reader.pending.length + 1 ≤ turns) :
    (convertDdbToNormal turns F reader ⟨⟨out, []⟩, []⟩ rb cb pretty unbuffered asWrapper).2 = .ok ∧
    (convertDdbToNormal turns F reader ⟨⟨out, []⟩, []⟩ rb cb pretty unbuffered asWrapper).1.d.w.out = out ++ DDocs.plain pretty ds := by
  obtain ⟨pool, hp, hh⟩ := pool_new cb 68 (by decide) (by decide) (by omega)
  have hrest : (RJ.new reader rb).rest = Docs.text ds.json tail := by
    rw [← hr, rest_new]
  have h := scan_docs_on (opt := ⟨[], false⟩) (ToNormal.implements (M := M) (L := L) (F := F)) (ToNormal.callbacks_keep F ToNormal.sound) rfl tail [] ds.json
    ⟨.new reader rb, .new ⟨⟨out, []⟩, []⟩ pretty unbuffered asWrapper, pool⟩ (ToNormal.well_iff.2 ⟨rfl, rfl, by intro k; simp [ToNormal.new]⟩) hi (ready_new _ _)
    (R := ⟨cb.length - 272, 68, 68⟩) hh ⟨by simp [names], by simp [names, usedNames, nameTop]; omega, by decide, by decide, by simp [names]⟩ hm hrest
  obtain ⟨ty', f', e⟩ := ToNormal.docs_plain (C := ⟨unbuffered, pretty, asWrapper⟩) ⟨cb.length - 272, 68, 68⟩ ds out none none (by simp) hf hn ho hw
  simp only [names, List.map_nil] at h
  rw [show ToNormal.new ⟨⟨out, []⟩, []⟩ pretty unbuffered asWrapper = ToNormal.Cfg.st ⟨unbuffered, pretty, asWrapper⟩ out false 0 .field none none from rfl, e] at h
  obtain ⟨st', h1, _, h2⟩ := h
  have h2 := h2 turns (by rw [hrest, ← hr]; simpa [DDocs.json] using ht)
  unfold convertDdbToNormal
  simp only [hp]
  rw [show ToNormal.new ⟨⟨out, []⟩, []⟩ pretty unbuffered asWrapper = ToNormal.Cfg.st ⟨unbuffered, pretty, asWrapper⟩ out false 0 .field none none from rfl, h2]
  simp only [h1]
  exact ⟨trivial, rfl⟩

/-! ## Examples -/

/-- A check for the examples: only ASCII strings, literals and digits, no space, short keys. -/
def plainBody (k : Bytes) : Bool := k.all fun c => 32 ≤ c.toNat && c.toNat < 128 && c != 34 && c != 92
@[inherit_doc plainBody]
def plainAtom (tok : Bytes) : Bool :=
  tok = [110, 117, 108, 108] || tok = [116, 114, 117, 101] || tok = [102, 97, 108, 115, 101] || (2 ≤ tok.length && tok == quoted (tok.tail.dropLast) && plainBody tok.tail.dropLast) ||
    (tok.length == 1 && tok.all fun c => 49 ≤ c.toNat && c.toNat ≤ 57)
mutual
@[inherit_doc plainBody]
def plainVal : Val → Bool
  | .atom tok => plainAtom tok
  | .arr w items => w.isEmpty && plainItems items
  | .obj w members => w.isEmpty && plainMembers members
@[inherit_doc plainBody]
def plainItems : Items → Bool
  | .nil => true
  | .cons b v a more => b.isEmpty && plainVal v && a.isEmpty && plainItems more
@[inherit_doc plainBody]
def plainMembers : Members → Bool
  | .nil => true
  | .cons b k m m' v a more => b.isEmpty && plainBody k && k.length ≤ 16 && m.isEmpty && m'.isEmpty && plainVal v && a.isEmpty && plainMembers more
end

theorem plainBody_ok {k : Bytes} (h : plainBody k) : RawBody k := by
  refine raw_ascii k fun c hc => ?_
  simp only [plainBody, List.all_eq_true, Bool.and_eq_true, decide_eq_true_eq, bne_iff_ne, ne_eq] at h
  obtain ⟨⟨⟨h1, h2⟩, h3⟩, h4⟩ := h c hc
  exact ⟨h1, h2, h3, h4⟩

theorem plainAtom_ok {tok : Bytes} (h : plainAtom tok) : (rules wholeMode 20).atom tok := by
  simp only [plainAtom, Bool.or_eq_true, decide_eq_true_eq, Bool.and_eq_true, beq_iff_eq] at h
  rcases h with (((rfl | rfl) | rfl) | ⟨⟨_, h1⟩, h2⟩) | ⟨h1, h2⟩
  · exact .null
  · exact .true
  · exact .false
  · rw [h1]
    exact .string _ (plainBody_ok h2) trivial
  · obtain ⟨c, rfl⟩ := List.length_eq_one_iff.1 h1
    simp at h2
    refine .number _ (number_digit c ?_ ?_) (by show 1 + 1 ≤ 20; decide)
    · unfold Digit
      omega
    · intro h
      rw [h] at h2
      exact absurd h2.1 (by decide)

theorem head_whole (v : Val) (b : Bytes) (L : Nat) : v.HeadMeets (rules wholeMode L) b := by
  unfold Val.HeadMeets
  split <;> trivial

mutual
theorem plainVal_ok : ∀ (v : Val), plainVal v = true → v.Meets (rules wholeMode 20)
  | .atom tok, h => plainAtom_ok h
  | .arr w items, h => by
    simp only [plainVal, Bool.and_eq_true, List.isEmpty_iff] at h
    rw [h.1]
    exact ⟨spaces_nil, plainItems_ok items h.2⟩
  | .obj w members, h => by
    simp only [plainVal, Bool.and_eq_true, List.isEmpty_iff] at h
    rw [h.1]
    exact ⟨spaces_nil, plainMembers_ok members h.2⟩
theorem plainItems_ok : ∀ (is : Items), plainItems is = true → is.Meets (rules wholeMode 20)
  | .nil, _ => trivial
  | .cons b v a more, h => by
    simp only [plainItems, Bool.and_eq_true, List.isEmpty_iff] at h
    obtain ⟨⟨⟨rfl, h1⟩, rfl⟩, h2⟩ := h
    exact ⟨spaces_nil, plainVal_ok v h1, spaces_nil, plainItems_ok more h2⟩
theorem plainMembers_ok : ∀ (ms : Members), plainMembers ms = true → ms.Meets (rules wholeMode 20)
  | .nil, _ => trivial
  | .cons b k m m' v a more, h => by
    simp only [plainMembers, Bool.and_eq_true, List.isEmpty_iff, decide_eq_true_eq] at h
    obtain ⟨⟨⟨⟨⟨⟨⟨rfl, h1⟩, h2⟩, rfl⟩, rfl⟩, h3⟩, rfl⟩, h4⟩ := h
    exact ⟨spaces_nil, ⟨plainBody_ok h1, by show k.length + 0 + 4 ≤ 20; omega⟩, spaces_nil, spaces_nil, plainVal_ok v h3, head_whole _ _ _, spaces_nil,
      plainMembers_ok more h4⟩
end

/-- `exDdb`, and `{"Item":{"e":{"B":"x"}}}` behind a space. -/
def exItems : DDocs := [([], exDdb), ([32], .item .no [] (.cons [] [101] [] [] (.string .no true [120]) [] .nil))]

/-- A list in which a set comes second, `{"a":{"L":[{"S":"x"},{"SS":["y"]}]}}`. -/
def exSet : DDocs := [([], .bare [] (.cons [] [97] [] []
  (.list .no [] (.cons [] (.string .no false [120]) [] (.cons [] (.strings .no false [] [⟨[], [121], []⟩]) [] .nil))) [] .nil))]

/-- A field that is named `#array`, `{"a":{"L":[{"M":{"#array":{"S":"x"}}}]}}`. -/
def exArray : DDocs := [([], .bare [] (.cons [] [97] [] []
  (.list .no [] (.cons [] (.map .no [] (.cons [] nameArray [] [] (.string .no false [120]) [] .nil)) [] .nil)) [] .nil))]

theorem exItems_meets : Docs.Meets (rules wholeMode 20) exItems.json [32] :=
  ⟨spaces_nil, plainVal_ok _ (by decide +kernel), head_whole _ _ _, trivial, spaces_one, plainVal_ok _ (by decide +kernel), head_whole _ _ _, trivial, spaces_one⟩

/-- The hypotheses of `C49_output_partial` on the items above. -/
example : Inv wholeMode 20 200 (.new (whole (Docs.text exItems.json [32])) (List.replicate 120 0)) ∧
    (whole (Docs.text exItems.json [32])).pending = Docs.text exItems.json [32] ∧
    Docs.text exItems.json [32] =
      "{\"a\":{\"L\":[{\"N\":\"1\"},{\"M\":{\"b\":{\"SS\":[\"x\",\"y\"]}}}]},\"c\":{\"NULL\":true}} {\"Item\":{\"e\":{\"B\":\"x\"}}} ".toUTF8.toList ∧
    Docs.Meets (rules wholeMode 20) exItems.json [32] ∧ Docs.Fit ⟨400 - 272, 68, 68⟩ [nameTop] exItems.json ∧
    (∀ d ∈ exItems, d.2.members.Names (· ≠ nameArray)) ∧ (∀ d ∈ exItems, d.2.members.Orderly) ∧ (∀ d ∈ exItems, d.2.Reads true) ∧
    DDocs.plain false exItems = "{\"a\":[1,{\"b\":[\"x\",\"y\"]}],\"c\":null}\n{\"e\":\"x\"}\n".toUTF8.toList := by
  refine ⟨whole_new _ _ 20 200 (by simp [whole, exItems, exDdb, DDocs.json, DDoc.json, Docs.text, Val.text, Reader.OneChunk]) (by decide +kernel) (by decide) (by decide +kernel)
    (by decide +kernel), by decide +kernel, by decide +kernel, exItems_meets, ?_, ?_, ?_, ?_, by decide +kernel⟩
  · simp only [exItems, exDdb, DDocs.json, List.map_cons, List.map_nil, DDoc.json, DMembers.json, DVal.json, DItems.json, elemsJson, Sp.wrap, Docs.Fit, Val.Fit, Items.Fit,
      Members.Fit]
    decide
  · intro d hd
    simp only [exItems, List.mem_cons, List.not_mem_nil, or_false] at hd
    rcases hd with rfl | rfl
    · simp [exDdb, DDoc.members, DMembers.Names, DVal.Names, DItems.Names, nameArray]
    · simp [DDoc.members, DMembers.Names, DVal.Names, nameArray]
  · intro d hd
    simp only [exItems, List.mem_cons, List.not_mem_nil, or_false] at hd
    rcases hd with rfl | rfl
    · simp [exDdb, DDoc.members, DMembers.Orderly, DVal.Orderly, DItems.Orderly, DVal.isSet]
    · simp [DDoc.members, DMembers.Orderly, DVal.Orderly]
  · intro d hd
    simp only [exItems, List.mem_cons, List.not_mem_nil, or_false] at hd
    rcases hd with rfl | rfl
    · exact fun _ => by decide
    · rfl

/-- What comes out of the model for it, indented. -/
example : (convertDdbToNormal 140 200 (whole (Docs.text exItems.json [32])) ⟨⟨[], []⟩, []⟩ (List.replicate 120 0) (List.replicate 400 0)
    true false true).1.d.w.out = DDocs.plain true exItems := by decide +kernel

/-- Negation of C49 without the condition on sets: there is no comma in front of the set. -/
theorem C49_set_in_list : Docs.Meets (rules wholeMode 20) exSet.json [] ∧ (∀ d ∈ exSet, d.2.members.Names (· ≠ nameArray)) ∧ (∀ d ∈ exSet, d.2.Reads false) ∧
    (convertDdbToNormal 140 200 (whole (Docs.text exSet.json [])) ⟨⟨[], []⟩, []⟩ (List.replicate 120 0) (List.replicate 400 0) false false false).2 = .ok ∧
    (convertDdbToNormal 140 200 (whole (Docs.text exSet.json [])) ⟨⟨[], []⟩, []⟩ (List.replicate 120 0) (List.replicate 400 0)
      false false false).1.d.w.out = "{\"a\":[\"x\"[\"y\"]]}\n".toUTF8.toList ∧
    DDocs.plain false exSet = "{\"a\":[\"x\",[\"y\"]]}\n".toUTF8.toList := by
  refine ⟨⟨spaces_nil, plainVal_ok _ (by decide +kernel), head_whole _ _ _, trivial, spaces_nil⟩, ?_, ?_, by decide +kernel, by decide +kernel, by decide +kernel⟩
  · intro d hd
    simp only [exSet, List.mem_cons, List.not_mem_nil, or_false] at hd
    subst hd
    simp [DDoc.members, DMembers.Names, DVal.Names, DItems.Names, nameArray]
  · intro d hd
    simp only [exSet, List.mem_cons, List.not_mem_nil, or_false] at hd
    subst hd
    exact fun h => absurd h (by decide)

/-- Negation of C49 without the condition on names: the brace of the inner object is lost. -/
theorem C49_array_field : Docs.Meets (rules wholeMode 20) exArray.json [] ∧ (∀ d ∈ exArray, d.2.members.Orderly) ∧ (∀ d ∈ exArray, d.2.Reads false) ∧
    (convertDdbToNormal 140 200 (whole (Docs.text exArray.json [])) ⟨⟨[], []⟩, []⟩ (List.replicate 120 0) (List.replicate 400 0) false false false).2 = .ok ∧
    (convertDdbToNormal 140 200 (whole (Docs.text exArray.json [])) ⟨⟨[], []⟩, []⟩ (List.replicate 120 0) (List.replicate 400 0)
      false false false).1.d.w.out = "{\"a\":[{\"#array\":\"x\"]}\n".toUTF8.toList ∧
    DDocs.plain false exArray = "{\"a\":[{\"#array\":\"x\"}]}\n".toUTF8.toList := by
  refine ⟨⟨spaces_nil, plainVal_ok _ (by decide +kernel), head_whole _ _ _, trivial, spaces_nil⟩, ?_, ?_, by decide +kernel, by decide +kernel, by decide +kernel⟩
  · intro d hd
    simp only [exArray, List.mem_cons, List.not_mem_nil, or_false] at hd
    subst hd
    simp [DDoc.members, DMembers.Orderly, DVal.Orderly, DItems.Orderly, DVal.isSet]
  · intro d hd
    simp only [exArray, List.mem_cons, List.not_mem_nil, or_false] at hd
    subst hd
    exact fun h => absurd h (by decide)

end Verif.Ddb
