import Verif.Ddb.Fail
import Verif.Ddb.Spec
import Verif.Scan.Guard

/-!
# Property C47: what `convert_normal_to_ddb` writes
-/

namespace Verif.Ddb

open Verif.U8Pool (Pool)
open Verif.RJiter
open Verif.Scan

namespace ToDdb

/-! ## The callbacks with a writer that does not fail -/

/-- A writer that does not fail. -/
abbrev sound : Dest := ⟨⟨[], []⟩, []⟩

theorem Well.dest {b : ToDdb} (h : Well sound b) : b.d = ⟨⟨b.d.w.out, []⟩, []⟩ := by
  obtain ⟨⟨ws, fs, h1, h2, _⟩, _⟩ := h
  rcases b with ⟨⟨⟨o, p⟩, f⟩, _⟩
  simp only [List.nil_eq, List.append_eq_nil_iff] at h1 h2
  simp [h1.2, h2.2]

theorem well_iff {b : ToDdb} : Well sound b ↔ b.d.w.plan = [] ∧ b.d.flushes = [] ∧ b.lastError = none := by
  constructor
  · intro h
    have := h.dest
    rw [this]
    exact ⟨rfl, rfl, h.2⟩
  · rintro ⟨h1, h2, h3⟩
    exact ⟨⟨[], [], h1.symm, h2.symm, List.nil_prefix, by simp⟩, h3⟩

theorem Fine.well {b : ToDdb} {x : Step} (h : Fine b x) (hb : Well sound b) : ∃ b', x = (b', none) ∧ Well sound b' := by
  rcases x with ⟨b', m⟩
  rcases h with ⟨rfl, h1, h2⟩ | ⟨m, k, c, _, ⟨ws, fs, h1, h2, _, h3⟩, _⟩
  · exact ⟨b', rfl, hb.1.trans h1, h2.trans hb.2⟩
  · rw [hb.dest] at h1 h2
    simp only [List.nil_eq, List.append_eq_nil_iff] at h1 h2
    have := (h3 k).1 (by simp)
    simp [h1.1, h2.1] at this

/-- The text of a value that is not an array or object, as a step. -/
def spell (tok : Bytes) (b : ToDdb) : Step :=
  if tok.head? = some 34 then
    (b.indent.bind (put [34, 83, 34, 58, 34] "writing S type opening")).bind fun b =>
    ({ b with d := { b.d with w := ⟨b.d.w.out ++ tok.tail.dropLast, []⟩ } } : ToDdb).flushLong.bind fun b =>
    (b.put [34] "writing S type closing quote").bind closeValue
  else if tok.head? = some 116 then
    b.indent.bind fun b => (b.put [34, 66, 79, 79, 76, 34, 58, 116, 114, 117, 101] "writing BOOL true").bind closeValue
  else if tok.head? = some 102 then
    b.indent.bind fun b => (b.put [34, 66, 79, 79, 76, 34, 58, 102, 97, 108, 115, 101] "writing BOOL false").bind closeValue
  else if tok.head? = some 110 then
    b.indent.bind fun b => (b.put [34, 78, 85, 76, 76, 34, 58, 116, 114, 117, 101] "writing NULL type").bind closeValue
  else
    b.indent.bind fun b => (b.put [34, 78, 34, 58, 34] "writing N type opening").bind fun b =>
      (b.put (tok.take 32) "writing number value").bind fun b =>
      (b.put [34] "writing N type closing quote").bind closeValue

/-- What `on_atom_value_toddb` does. -/
def atom (tok : Bytes) (b : ToDdb) : Step := b.writeComma.bind (spell tok)

/-- What `on_root_literal` does. -/
def literal (tok : Bytes) (b : ToDdb) : Step :=
  ((b.put [123] "writing root literal opening brace").bind inc).bind fun b =>
  (b.atom tok).bind fun b => (b.put [10] "writing final newline").bind (setComma false)

/-- A step, and the answer if it does not fail. -/
def Step.op (x : Step) (o : StreamOp) : ToDdb × StreamOp :=
  match x with
  | (b, none) => (b, o)
  | (b, some m) => (b, .error m)

/-- What the callbacks do if no write fails. -/
def handler : Handler ToDdb where
  start p path v b :=
    match path with
    | [] =>
      match p with
      | .atom => (b.atom v.text).op .valueIsConsumed
      | .array => b.arrayBegin.op .none
      | _ => (b, .none)
    | parent :: _ =>
      if parent = nameTop then
        match p with
        | .object => (rootObjectBegin b).op .none
        | .atom => (b.literal v.text).op .valueIsConsumed
        | .array => (rootArray b).op .none
        | .none => (b, .none)
      else
        match p with
        | .none => (({ b with field := some parent } : ToDdb).fieldKey).op .none
        | .atom => (if parent = nameArray then b.elementBegin.bind (atom v.text) else b.atom v.text).op .valueIsConsumed
        | .array => (if parent = nameArray then b.elementBegin.bind arrayBegin else b.arrayBegin).op .none
        | .object => (if parent = nameArray then b.elementBegin.bind objectBegin else b.objectBegin).op .none
  finish p path b :=
    match path with
    | [] => (b, none)
    | parent :: _ =>
      if parent = nameTop then
        match p with
        | .object => b.rootObjectEnd
        | .array => b.rootArrayEnd
        | _ => (b, none)
      else
        match p with
        | .object => b.objectEnd
        | .array => b.arrayEnd
        | _ => (b, none)

variable {M : Mode} {L F : Nat}

theorem act_none {f : ToDdb → Step} {op : StreamOp} {b b' : ToDdb} (h : f b = (b', none)) (s : RJ) :
    act f op s b = ((s, b'), .op op) := by
  simp [act, Step.run, h]

theorem Step.bind_none {x : Step} {b : ToDdb} (h : x = (b, none)) (k : ToDdb → Step) : x.bind k = k b := by
  rw [h]; rfl

theorem Step.run_none {x : Step} {b : ToDdb} (h : x = (b, none)) (s : RJ) (k : Action ToDdb) : x.run s k = k s b := by
  rw [h]; rfl

theorem Well.write {b : ToDdb} (h : Well sound b) (out : Bytes) : Well sound { b with d := { b.d with w := ⟨out, []⟩ } } := by
  rw [well_iff] at h ⊢
  exact ⟨rfl, h.2.1, h.2.2⟩

theorem onAtom_spec {s : RJ} (hi : Inv M L F s) {tok t : Bytes} (ha : IsAtom (fun n => n.length + 1 ≤ L) M.str tok)
    (he : Ends (.atom tok) t) (hr : s.rest = tok ++ t) {b : ToDdb} (hb : Well sound b) :
    ∃ s' b', onAtom F s b = ((s', b'), .op .valueIsConsumed) ∧ b.atom tok = (b', none) ∧ Well sound b' ∧ Inv M L F s' ∧
      s.Moved s' tok.length ∧ 0 < s'.jidx := by
  obtain ⟨c, r, e, hc1, hc2, _⟩ := atom_first ha
  obtain ⟨s1, e1, hi1, hm1⟩ := hi.peek (ws := []) (c := c) (t := r ++ t) (by rw [hr, e]; rfl) (by intro c hc; simp at hc) hc1 hc2
  have hr1 : s1.rest = tok ++ t := by rw [hm1.rest, hr]; rfl
  obtain ⟨b1, f1, hb1⟩ := (fine_writeComma b).well hb
  have key : ∀ {s2 s3 : RJ} {n : Nat}, s1.Moved s2 0 → s2.Moved s3 n → s.Moved s3 n := by
    intro s2 s3 n h1 h2
    have := (hm1.trans h1).trans h2
    simpa using this
  have key0 : ∀ {s3 : RJ} {n : Nat}, s1.Moved s3 n → s.Moved s3 n := by
    intro s3 n h2
    have := hm1.trans h2
    simpa using this
  unfold onAtom atom
  rw [Step.run_none f1, Step.bind_none f1]
  simp only [e1]
  cases ha with
  | null =>
    simp only [List.cons.injEq] at e
    obtain ⟨rfl, rfl⟩ := e
    obtain ⟨s2, e2, hi2, hm2⟩ := hi1.peek (ws := []) (c := 110) (t := [117, 108, 108] ++ t) (by rw [hr1]; rfl) (by intro c hc; simp at hc) hc1 hc2
    have hr2 : s2.rest = [110, 117, 108, 108] ++ t := by rw [hm2.rest, hr1]; rfl
    obtain ⟨s3, e3, hi3, hm3, hj3⟩ := hi2.null hr2
    obtain ⟨b2, f2, hb2⟩ := Fine.well (b := b1) (x := b1.indent.bind fun b =>
        (b.put [34, 78, 85, 76, 76, 34, 58, 116, 114, 117, 101] "writing NULL type").bind closeValue)
      ((fine_indent b1).bind fun b => (fine_put _ _ b).bind fine_closeValue) hb1
    refine ⟨s3, b2, ?_, ?_, hb2, hi3, key hm2 hm3, hj3⟩
    · simp only [show (110 : Byte) ≠ 34 by decide, show ¬ ((110 : Byte) = 116 ∨ (110 : Byte) = 102) by decide, if_false, if_true, onNull, e2,
        ne_eq, not_true_eq_false, e3, ignoring]
      exact act_none f2 s3
    · simp [spell, f2]
  | true =>
    simp only [List.cons.injEq] at e
    obtain ⟨rfl, rfl⟩ := e
    obtain ⟨s2, e2, hi2, hm2⟩ := hi1.peek (ws := []) (c := 116) (t := [114, 117, 101] ++ t) (by rw [hr1]; rfl) (by intro c hc; simp at hc) hc1 hc2
    have hr2 : s2.rest = [116, 114, 117, 101] ++ t := by rw [hm2.rest, hr1]; rfl
    obtain ⟨s3, e3, hi3, hm3, hj3⟩ := hi2.true hr2
    obtain ⟨b2, f2, hb2⟩ := (fine_indent b1).well hb1
    obtain ⟨b3, f3, hb3⟩ := Fine.well (b := b2) (x := (b2.put [34, 66, 79, 79, 76, 34, 58, 116, 114, 117, 101] "writing BOOL true").bind closeValue)
      ((fine_put _ _ b2).bind fine_closeValue) hb2
    refine ⟨s3, b3, ?_, ?_, hb3, hi3, key hm2 hm3, hj3⟩
    · simp only [show (116 : Byte) ≠ 34 by decide, if_false, true_or, if_true, onBool, e2]
      rw [Step.run_none f2]
      simp only [e3, ignoring]
      exact act_none f3 s3
    · simp [spell, Step.bind_none f2, f3]
  | false =>
    simp only [List.cons.injEq] at e
    obtain ⟨rfl, rfl⟩ := e
    obtain ⟨s2, e2, hi2, hm2⟩ := hi1.peek (ws := []) (c := 102) (t := [97, 108, 115, 101] ++ t) (by rw [hr1]; rfl) (by intro c hc; simp at hc) hc1 hc2
    have hr2 : s2.rest = [102, 97, 108, 115, 101] ++ t := by rw [hm2.rest, hr1]; rfl
    obtain ⟨s3, e3, hi3, hm3, hj3⟩ := hi2.false hr2
    obtain ⟨b2, f2, hb2⟩ := (fine_indent b1).well hb1
    obtain ⟨b3, f3, hb3⟩ := Fine.well (b := b2) (x := (b2.put [34, 66, 79, 79, 76, 34, 58, 102, 97, 108, 115, 101] "writing BOOL false").bind closeValue)
      ((fine_put _ _ b2).bind fine_closeValue) hb2
    refine ⟨s3, b3, ?_, ?_, hb3, hi3, key hm2 hm3, hj3⟩
    · simp only [show (102 : Byte) ≠ 34 by decide, show (102 : Byte) ≠ 116 by decide, if_false, or_true, if_true, onBool, e2]
      rw [Step.run_none f2]
      simp only [e3, ignoring]
      exact act_none f3 s3
    · simp [spell, Step.bind_none f2, f3]
  | string body hbd hs =>
    simp only [List.cons.injEq] at e
    obtain ⟨rfl, rfl⟩ := e
    obtain ⟨b2, f2, hb2⟩ := Fine.well (b := b1) (x := b1.indent.bind (put [34, 83, 34, 58, 34] "writing S type opening"))
      ((fine_indent b1).bind (fine_put _ _)) hb1
    obtain ⟨s2, w', e2, ho, hi2, hm2, hj2⟩ := hi1.string b2.d.w hbd hs (well_iff.1 hb2).1 (by simpa using hr1)
    have hw' : w' = ⟨b2.d.w.out ++ body, []⟩ := by
      have := handleLong_wrote .raw F s1 b2.d.w
      rw [show RJ.handleLong .raw F s1 b2.d.w = _ from e2] at this
      refine Writer.clean_eq ?_ ho
      rcases this with h | ⟨_, _, _, h⟩
      · exact h.clean (well_iff.1 hb2).1
      · cases h
    subst hw'
    have hb3 := hb2.write (b2.d.w.out ++ body)
    obtain ⟨b4, f4, hb4⟩ := Fine.well (b := { b2 with d := { b2.d with w := ⟨b2.d.w.out ++ body, []⟩ } })
      (x := ({ b2 with d := { b2.d with w := ⟨b2.d.w.out ++ body, []⟩ } } : ToDdb).flushLong.bind fun b =>
        (b.put [34] "writing S type closing quote").bind closeValue)
      ((fine_flushLong _).bind fun b => (fine_put _ _ b).bind fine_closeValue) hb3
    refine ⟨s2, b4, ?_, ?_, hb4, hi2, ?_, hj2⟩
    · simp only [if_true, onString]
      rw [Step.run_none f2]
      simp only [e2]
      exact act_none f4 s2
    · simp only [spell, List.head?_cons, if_true, List.tail_cons, List.dropLast_concat]
      rw [Step.bind_none f2]
      exact f4
    · have := key0 hm2
      simpa using this
  | number tok hn hl =>
    obtain ⟨c', r', e', hc'⟩ := number_first hn
    rw [e] at e'
    injection e' with e1' e2'
    subst e1'
    obtain ⟨he1, he2⟩ := he hn
    obtain ⟨s2, e2, hi2, hm2, hj2⟩ := hi1.number hn he1 he2 hr1 hl
    obtain ⟨b2, f2, hb2⟩ := Fine.well (b := b1) (x := b1.indent.bind fun b => (b.put [34, 78, 34, 58, 34] "writing N type opening").bind fun b =>
        (b.put (tok.take 32) "writing number value").bind fun b =>
        (b.put [34] "writing N type closing quote").bind closeValue)
      ((fine_indent b1).bind fun b => (fine_put _ _ b).bind fun b => (fine_put _ _ b).bind fun b => (fine_put _ _ b).bind fine_closeValue) hb1
    have hne : c ≠ 34 ∧ c ≠ 116 ∧ c ≠ 102 ∧ c ≠ 110 := by
      refine ⟨?_, ?_, ?_, ?_⟩ <;> (rintro rfl; revert hc'; decide)
    refine ⟨s2, b2, ?_, ?_, hb2, hi2, key0 hm2, hj2⟩
    · simp only [hne, or_self, if_false, onNumber, e2]
      exact act_none f2 s2
    · have hh : tok.head? = some c := by rw [e]; rfl
      simp [spell, hh, hne, f2]

theorem literal_spec {s : RJ} (hi : Inv M L F s) {tok t : Bytes} (ha : IsAtom (fun n => n.length + 1 ≤ L) M.str tok)
    (he : Ends (.atom tok) t) (hr : s.rest = tok ++ t) {b : ToDdb} (hb : Well sound b) :
    ∃ s' b', onRootLiteral F s b = ((s', b'), .op .valueIsConsumed) ∧ b.literal tok = (b', none) ∧ Well sound b' ∧ Inv M L F s' ∧
      s.Moved s' tok.length ∧ 0 < s'.jidx := by
  obtain ⟨b1, f1, hb1⟩ := Fine.well (b := b) (x := (b.put [123] "writing root literal opening brace").bind inc)
    ((fine_put _ _ b).bind fine_inc) hb
  obtain ⟨s2, b2, e2, f2, hb2, hi2, hm2, hj2⟩ := onAtom_spec hi ha he hr hb1
  obtain ⟨b3, f3, hb3⟩ := Fine.well (b := b2) (x := (b2.put [10] "writing final newline").bind (setComma false))
    ((fine_put _ _ b2).bind (fine_setComma _)) hb2
  refine ⟨s2, b3, ?_, ?_, hb3, hi2, hm2, hj2⟩
  · unfold onRootLiteral
    rw [Step.run_none f1]
    simp only [e2]
    exact act_none f3 s2
  · unfold literal
    rw [Step.bind_none f1, Step.bind_none f2]
    exact f3

theorem answer_act {s : RJ} (hi : Inv M L F s) {ws : Bytes} {v : Val} {b : ToDdb} (hb : Well sound b) {f : ToDdb → Step}
    (hf : Fine b (f b)) : Answer (Inv M L F) s ws v ((f b).op .none) (act f .none s b) := by
  obtain ⟨b', e, _⟩ := hf.well hb
  rw [act_none e, e]
  exact ⟨rfl, hi, ⟨0, Nat.zero_le _, .refl hi.sync⟩, fun h => ⟨h, rfl⟩⟩

theorem implements : ImplementsOn (Well sound) (callbacks F) handler (Inv M L F) (rules M L) := by
  refine ⟨?_, ?_⟩
  · intro p path v b s ws t hb hi h1 h2 h3 h4 h5 h6 h7
    have atoms : p = .atom → ∃ tok, v = .atom tok ∧ ws = [] ∧ IsAtom (fun n => n.length + 1 ≤ L) M.str tok ∧ s.rest = tok ++ t := by
      rintro rfl
      cases v with
      | arr w is => exact absurd h1 (by simp [Starts])
      | obj w ms => exact absurd h1 (by simp [Starts])
      | atom tok =>
        obtain rfl := h4 (by decide)
        exact ⟨tok, rfl, rfl, h2, h6⟩
    have onA : ∀ b, Well sound b → p = .atom →
        Answer (Inv M L F) s ws v ((b.atom v.text).op .valueIsConsumed) (onAtom F s b) := by
      intro b hb hp
      obtain ⟨tok, rfl, rfl, ha, hr⟩ := atoms hp
      obtain ⟨s2, b2, e2, f2, hb2, hi2, hm2, hj2⟩ := onAtom_spec hi ha h7 hr hb
      rw [e2, show (Val.atom tok).text = tok from rfl, f2]
      exact ⟨rfl, hi2, by simpa [Val.text] using hm2, hj2⟩
    have onE : ∀ b, Well sound b → p = .atom →
        Answer (Inv M L F) s ws v ((b.elementBegin.bind (atom v.text)).op .valueIsConsumed) (onElementAtom F s b) := by
      intro b hb hp
      obtain ⟨b1, f1, hb1⟩ := (fine_elementBegin b).well hb
      unfold onElementAtom
      rw [Step.run_none f1, Step.bind_none f1]
      exact onA b1 hb1 hp
    have onL : ∀ b, Well sound b → p = .atom →
        Answer (Inv M L F) s ws v ((b.literal v.text).op .valueIsConsumed) (onRootLiteral F s b) := by
      intro b hb hp
      obtain ⟨tok, rfl, rfl, ha, hr⟩ := atoms hp
      obtain ⟨s2, b2, e2, f2, hb2, hi2, hm2, hj2⟩ := literal_spec hi ha h7 hr hb
      rw [e2, show (Val.atom tok).text = tok from rfl, f2]
      exact ⟨rfl, hi2, by simpa [Val.text] using hm2, hj2⟩
    simp only [callbacks, find, handler]
    rcases path with _ | ⟨parent, above⟩
    · cases p with
      | none => rfl
      | object => rfl
      | atom => exact onA b hb rfl
      | array => exact answer_act hi hb (fine_arrayBegin b)
    · by_cases ht : parent = nameTop
      · simp only [ht, if_true]
        cases p with
        | none => rfl
        | object => exact answer_act hi hb (fine_rootObjectBegin b)
        | atom => exact onL b hb rfl
        | array => exact answer_act hi hb (fine_rootArray b)
      · simp only [ht, if_false]
        by_cases ha : parent = nameArray
        · simp only [ha, if_true]
          cases p with
          | none => exact answer_act hi (b := { b with field := some nameArray }) hb (fine_fieldKey _ (by simp))
          | object => exact answer_act (f := fun b => b.elementBegin.bind objectBegin) hi hb ((fine_elementBegin b).bind fine_objectBegin)
          | atom => exact onE b hb rfl
          | array => exact answer_act (f := fun b => b.elementBegin.bind arrayBegin) hi hb ((fine_elementBegin b).bind fine_arrayBegin)
        · simp only [ha, if_false]
          cases p with
          | none => exact answer_act hi (b := { b with field := some parent }) hb (fine_fieldKey _ (by simp))
          | object => exact answer_act hi hb (fine_objectBegin b)
          | atom => exact onA b hb rfl
          | array => exact answer_act hi hb (fine_arrayBegin b)
  · intro p path b hb
    simp only [callbacks, findEnd, handler]
    rcases path with _ | ⟨parent, above⟩
    · rfl
    · by_cases ht : parent = nameTop
      · simp only [ht, if_true]
        cases p <;> rfl
      · simp only [ht, if_false]
        cases p with
        | none => rfl
        | object => rfl
        | array => rfl
        | atom =>
          simp only
          split <;> rfl

/-! ## The steps in a state that is written out -/

/-- The flags. -/
structure Cfg where
  item : Bool
  unbuffered : Bool
  pretty : Bool

/-- The state with the writer that does not fail. -/
def Cfg.st (C : Cfg) (out : Bytes) (comma : Bool) (field : Option Bytes) (depth : Nat) : ToDdb :=
  ⟨⟨⟨out, []⟩, []⟩, comma, C.item, C.unbuffered, field, C.pretty, depth, none, false⟩

variable (C : Cfg) (out : Bytes) (c : Bool) (f : Option Bytes) (d : Nat)

theorem Cfg.well : Well sound (C.st out c f d) := well_iff.2 ⟨rfl, rfl, rfl⟩

@[simp] theorem bind_mk (b : ToDdb) (k : ToDdb → Step) : Step.bind (b, none) k = k b := rfl

@[simp] theorem op_mk (b : ToDdb) (o : StreamOp) : Step.op (b, none) o = (b, o) := rfl

@[simp] theorem put_st (bs : Bytes) (m : String) : (C.st out c f d).put bs m = (C.st (out ++ bs) c f d, none) := by
  rcases C with ⟨i, u, p⟩
  cases u <;> rfl

@[simp] theorem newline_st : (C.st out c f d).newline = (C.st (out ++ nl C.pretty) c f d, none) := by
  rcases C with ⟨i, u, p⟩
  cases p
  · simp [newline, nl, Cfg.st]
  · rw [show (Cfg.st ⟨i, u, true⟩ out c f d).newline = (Cfg.st ⟨i, u, true⟩ out c f d).put [10] "writing newline" from rfl, put_st]
    rfl

theorem indentLoop_st (n : Nat) : ∀ out : Bytes, indentLoop n (C.st out c f d) = (C.st (out ++ (List.replicate n [32, 32]).flatten) c f d, none) := by
  induction n with
  | zero => simp [indentLoop]
  | succ n ih =>
    intro out
    rw [indentLoop, put_st, bind_mk, ih]
    simp [List.replicate_succ]

@[simp] theorem indent_st : (C.st out c f d).indent = (C.st (out ++ ind C.pretty d) c f d, none) := by
  rcases C with ⟨i, u, p⟩
  cases p
  · simp [indent, ind, Cfg.st]
  · rw [show (Cfg.st ⟨i, u, true⟩ out c f d).indent = indentLoop d (Cfg.st ⟨i, u, true⟩ out c f d) from rfl, indentLoop_st]
    rfl

@[simp] theorem inc_st : (C.st out c f d).inc = (C.st out c f (d + 1), none) := rfl
@[simp] theorem dec_st : (C.st out c f (d + 1)).dec = (C.st out c f d, none) := rfl
@[simp] theorem setComma_st (c' : Bool) : (C.st out c f d).setComma c' = (C.st out c' f d, none) := rfl

@[simp] theorem writeComma_false : (C.st out false f d).writeComma = (C.st out false f d, none) := rfl

@[simp] theorem writeComma_true : (C.st out true f d).writeComma = (C.st (out ++ 44 :: nl C.pretty) false f d, none) := by
  rw [show (C.st out true f d).writeComma = ((C.st out true f d).put [44] "writing comma").bind (fun b => b.newline.bind fun b =>
    ({ b with comma := false }, none)) from rfl, put_st, bind_mk, newline_st, bind_mk]
  simp [Cfg.st]

@[simp] theorem flushLong_st : (C.st out c f d).flushLong = (C.st out c f d, none) := by
  rcases C with ⟨i, u, p⟩
  cases u <;> rfl

@[simp] theorem closeValue_st :
    (C.st out c f (d + 1)).closeValue = (C.st (out ++ (nl C.pretty ++ (ind C.pretty d ++ [125]))) true f d, none) := by
  simp [closeValue]

/-- The shape of an atom. -/
inductive Shape : Bytes → Prop where
  | null : Shape [110, 117, 108, 108]
  | true : Shape [116, 114, 117, 101]
  | false : Shape [102, 97, 108, 115, 101]
  | number (tok : Bytes) (h : Number tok) : Shape tok
  | string (body : Bytes) : Shape (34 :: (body ++ [34]))

/-- An atom that is written as it is. -/
def Cut (tok : Bytes) : Prop := Shape tok ∧ Short tok

theorem shape_of {tok : Bytes} {num str : Bytes → Prop} (ha : IsAtom num str tok) : Shape tok := by
  cases ha with
  | null => exact .null
  | true => exact .true
  | false => exact .false
  | number _ hn _ => exact .number _ hn
  | string body _ _ => exact .string body

mutual
theorem cut_of : ∀ (v : Val), v.Meets (rules M L) → Atoms Short v → Atoms Cut v
  | .atom _, h, hs => ⟨shape_of h, hs⟩
  | .arr _ is, h, hs => cut_items is h.2 hs
  | .obj _ ms, h, hs => cut_members ms h.2 hs
theorem cut_items : ∀ (is : Items), is.Meets (rules M L) → AtomsItems Short is → AtomsItems Cut is
  | .nil, _, _ => trivial
  | .cons _ v _ more, h, hs => ⟨cut_of v h.2.1 hs.1, cut_items more h.2.2.2 hs.2⟩
theorem cut_members : ∀ (ms : Members), ms.Meets (rules M L) → AtomsMembers Short ms → AtomsMembers Cut ms
  | .nil, _, _ => trivial
  | .cons _ _ _ _ v _ more, h, hs => ⟨cut_of v h.2.2.2.2.1 hs.1, cut_members more h.2.2.2.2.2.2.2 hs.2⟩
end

theorem cut_docs : ∀ (ds : Docs) (tail : Bytes), Docs.Meets (rules M L) ds tail → (∀ d ∈ ds, Atoms Short d.2) → ∀ d ∈ ds, Atoms Cut d.2
  | [], _, _, _, d, hd => by cases hd
  | (b, v) :: ds, tail, h, hs, d, hd => by
    rcases List.mem_cons.1 hd with rfl | hd
    · exact cut_of v h.2.1 (hs (b, v) (by simp))
    · exact cut_docs ds tail h.2.2.2.2 (fun d hd => hs d (by simp [hd])) d hd

/-- The member `"type":text` of an atom, and the closing brace. -/
theorem spell_st {tok : Bytes} (h : Cut tok) :
    spell tok (C.st out c f (d + 1)) =
      (C.st (out ++ (ind C.pretty (d + 1) ++ 34 :: ((atomType tok).1 ++ 34 :: 58 :: ((atomType tok).2 ++
        (nl C.pretty ++ (ind C.pretty d ++ [125])))))) true f d, none) := by
  obtain ⟨ha, hs⟩ := h
  cases ha with
  | null => simp [spell, atomType]
  | true => simp [spell, atomType]
  | false => simp [spell, atomType]
  | string body =>
    have : ∀ o c f d x, ({ C.st o c f d with d := { (C.st o c f d).d with w := ⟨x, []⟩ } } : ToDdb) = C.st x c f d := fun _ _ _ _ _ => rfl
    simp only [spell, List.head?_cons, if_true, List.tail_cons, List.dropLast_concat, indent_st, bind_mk, put_st, this, flushLong_st, closeValue_st,
      atomType]
    simp [Cfg.st]
  | number tok hn =>
    obtain ⟨c', r, e, hc⟩ := number_first hn
    have hne : c' ≠ 34 ∧ c' ≠ 116 ∧ c' ≠ 102 ∧ c' ≠ 110 := by
      refine ⟨?_, ?_, ?_, ?_⟩ <;> (rintro rfl; revert hc; decide)
    have ht : tok.take 32 = tok := List.take_of_length_le (hs hn)
    have hat : atomType tok = ([78], 34 :: (tok ++ [34])) := by
      rw [e]
      simp [atomType, hne]
    have hh : tok.head? = some c' := by rw [e]; rfl
    simp [spell, hh, hne, hat, ht]

/-- What `write_comma` writes. -/
def lead (p c : Bool) : Bytes := if c then 44 :: nl p else []

theorem writeComma_st : (C.st out c f d).writeComma = (C.st (out ++ lead C.pretty c) false f d, none) := by
  cases c
  · simp [lead]
  · simp [lead]

theorem elementBegin_st : (C.st out c f d).elementBegin = (C.st (out ++ (lead C.pretty c ++ 123 :: nl C.pretty)) false f (d + 1), none) := by
  simp [elementBegin, writeComma_st]

theorem arrayBegin_st :
    (C.st out c f d).arrayBegin = (C.st (out ++ (ind C.pretty d ++ 34 :: 76 :: 34 :: 58 :: 91 :: nl C.pretty)) false f d, none) := by
  simp [arrayBegin]

theorem objectBegin_st :
    (C.st out c f d).objectBegin = (C.st (out ++ (ind C.pretty d ++ 34 :: 77 :: 34 :: 58 :: 123 :: nl C.pretty)) false f (d + 1), none) := by
  simp [objectBegin]

theorem fieldKey_st (k : Bytes) :
    ({ C.st out c f d with field := some k } : ToDdb).fieldKey =
      (C.st (out ++ (lead C.pretty c ++ (ind C.pretty d ++ 34 :: (k ++ 34 :: 58 :: 123 :: nl C.pretty)))) false (some k) (d + 1), none) := by
  rw [show ({ C.st out c f d with field := some k } : ToDdb) = C.st out c (some k) d from rfl]
  unfold fieldKey
  rw [show (C.st out c (some k) d).field = some k from rfl]
  simp [writeComma_st]

theorem arrayEnd_st : (C.st out c f (d + 1)).arrayEnd =
    (C.st (out ++ (nl C.pretty ++ (ind C.pretty (d + 1) ++ 93 :: (nl C.pretty ++ (ind C.pretty d ++ [125]))))) true f d, none) := by
  simp [arrayEnd]

theorem objectEnd_st : (C.st out c f (d + 2)).objectEnd =
    (C.st (out ++ (nl C.pretty ++ (ind C.pretty (d + 1) ++ 125 :: (nl C.pretty ++ (ind C.pretty d ++ [125]))))) true f d, none) := by
  simp [objectEnd]

/-- The opening brace in front of a value: of an item it is written with the value, of a member with the key. -/
def entry (parent : Bytes) (b : ToDdb) : Step := if parent = nameArray then b.elementBegin else (b, none)

section
variable {parent : Bytes} (ht : parent ≠ nameTop)
include ht

theorem start_atom (tok : Bytes) (r : List Bytes) (b : ToDdb) :
    handler.start .atom (parent :: r) (.atom tok) b = ((entry parent b).bind (atom tok)).op .valueIsConsumed := by
  simp only [handler, ht, if_false, entry]
  by_cases ha : parent = nameArray <;> simp [ha, Val.text]

theorem start_array (v : Val) (r : List Bytes) (b : ToDdb) :
    handler.start .array (parent :: r) v b = ((entry parent b).bind arrayBegin).op .none := by
  simp only [handler, ht, if_false, entry]
  by_cases ha : parent = nameArray <;> simp [ha]

theorem start_object (v : Val) (r : List Bytes) (b : ToDdb) :
    handler.start .object (parent :: r) v b = ((entry parent b).bind objectBegin).op .none := by
  simp only [handler, ht, if_false, entry]
  by_cases ha : parent = nameArray <;> simp [ha]

end

/-! ## The end of the last item -/

theorem closeItems_nil (close : Bytes) : closeItems close .nil = close := rfl
theorem closeItems_cons (close b a : Bytes) (v : Val) (more : Items) : closeItems close (.cons b v a more) = [] := rfl
theorem closeMembers_nil (close : Bytes) : closeMembers close .nil = close := rfl
theorem closeMembers_cons (close b k m m' a : Bytes) (v : Val) (more : Members) : closeMembers close (.cons b k m m' v a more) = [] := rfl

section
variable (p : Bool) (e : Nat) (close : Bytes)

theorem close_items : ∀ (is : Items),
    closeItems close is ++ (typedItems p e close is).textMore = (typedItems p e [] is).textMore ++ close
  | .nil => by simp [closeItems_nil, typedItems, Items.textMore]
  | .cons _ v _ more => by
    have := close_items more
    have h0 : closeItems [] more = [] := by cases more <;> rfl
    simp [closeItems_cons, typedItems, Items.textMore, this, h0]

theorem close_members : ∀ (ms : Members),
    closeMembers close ms ++ (typedMembers p e close ms).textMore = (typedMembers p e [] ms).textMore ++ close
  | .nil => by simp [closeMembers_nil, typedMembers, Members.textMore]
  | .cons _ k _ _ v _ more => by
    have := close_members more
    have h0 : closeMembers [] more = [] := by cases more <;> rfl
    simp [closeMembers_cons, typedMembers, Members.textMore, this, h0]

end

/-! ## The induction over documents -/

/-- What is written for the items. -/
def itemsOut (p c : Bool) (e : Nat) : Items → Bytes
  | .nil => []
  | .cons _ v _ more => lead p c ++ ((typed p e v).text ++ (typedItems p e [] more).textMore)

/-- What is written for the members. -/
def membersOut (p c : Bool) (e : Nat) : Members → Bytes
  | .nil => []
  | .cons _ k _ _ v _ more => lead p c ++ (ind p e ++ 34 :: (k ++ 34 :: 58 :: ((typed p e v).text ++ (typedMembers p e [] more).textMore)))

/-- Whether a comma has to follow. -/
def itemsComma (c : Bool) : Items → Bool
  | .nil => c
  | .cons _ _ _ _ => true

@[inherit_doc itemsComma]
def membersComma (c : Bool) : Members → Bool
  | .nil => c
  | .cons _ _ _ _ _ _ _ => true

/-- The handler as it is used by `scan_docs_on`. -/
noncomputable abbrev guarded : Handler ToDdb := guardH (Well sound) handler

theorem itemsOut_true (p : Bool) (e : Nat) (is : Items) : itemsOut p true e is = (typedItems p e [] is).textMore := by
  cases is with
  | nil => rfl
  | cons b v a more =>
    have h0 : closeItems [] more = [] := by cases more <;> rfl
    simp [itemsOut, lead, typedItems, Items.textMore, h0]

theorem membersOut_true (p : Bool) (e : Nat) (ms : Members) : membersOut p true e ms = (typedMembers p e [] ms).textMore := by
  cases ms with
  | nil => rfl
  | cons b k m m' v a more =>
    have h0 : closeMembers [] more = [] := by cases more <;> rfl
    simp [membersOut, lead, typedMembers, Members.textMore, h0]

theorem itemsComma_true (is : Items) : itemsComma true is = true := by cases is <;> rfl
theorem membersComma_true (ms : Members) : membersComma true ms = true := by cases ms <;> rfl

/-- The text of an array. -/
theorem array_text (p : Bool) (d : Nat) (w : Bytes) (items : Items) :
    123 :: (nl p ++ (ind p (d + 1) ++ 34 :: 76 :: 34 :: 58 :: 91 :: (nl p ++ (itemsOut p false (d + 1) items ++
      (nl p ++ (ind p (d + 1) ++ 93 :: (nl p ++ (ind p d ++ [125])))))))) = (typed p d (.arr w items)).text := by
  cases items with
  | nil => simp [typed, wrap, Val.text, Members.text, Members.textMore, itemsOut, closeItems_nil, typedItems, Items.text]
  | cons b v a more =>
    have := close_items p (d + 1) (nl p ++ ind p (d + 1)) more
    have h2 : closeItems (nl p ++ ind p (d + 1)) more ++ ((typedItems p (d + 1) (nl p ++ ind p (d + 1)) more).textMore ++
        93 :: (nl p ++ (ind p d ++ [125]))) =
        (typedItems p (d + 1) [] more).textMore ++ (nl p ++ (ind p (d + 1) ++ 93 :: (nl p ++ (ind p d ++ [125])))) := by
      rw [← List.append_assoc, this]
      simp
    simp [typed, wrap, Val.text, Members.text, Members.textMore, itemsOut, lead, closeItems_cons, typedItems, Items.text, h2]

/-- The text of the members between braces. -/
theorem object_text (p : Bool) (e : Nat) (close : Bytes) (members : Members) :
    123 :: (nl p ++ (membersOut p false e members ++ (close ++ [125]))) =
      (Val.obj (closeMembers (nl p ++ close) members) (typedMembers p e close members)).text := by
  cases members with
  | nil => simp [Val.text, Members.text, membersOut, closeMembers_nil, typedMembers]
  | cons b k m m' v a more =>
    have := close_members p e close more
    have h2 : closeMembers close more ++ ((typedMembers p e close more).textMore ++ [125]) =
        (typedMembers p e [] more).textMore ++ (close ++ [125]) := by
      rw [← List.append_assoc, this]
      simp
    simp [Val.text, Members.text, membersOut, lead, closeMembers_cons, typedMembers, h2]

variable {C} (R : Room)

mutual
theorem scan_typed : ∀ (v : Val) (parent : Bytes) (r : List Bytes) (b : ToDdb) (out : Bytes) (f : Option Bytes) (d : Nat),
    parent ≠ nameTop → v.Fit R (parent :: r) → v.Keys Usual → Atoms Cut v → Well sound b →
    entry parent b = (C.st (out ++ 123 :: nl C.pretty) false f (d + 1), none) →
    ∃ f', v.scan guarded R (parent :: r) b = .done (C.st (out ++ (typed C.pretty d v).text) true f' d)
  | .atom tok, parent, r, b, out, f, d, ht, _, _, ha, hb, he => by
    refine ⟨f, ?_⟩
    simp only [Val.scan, Handler.around, guardH_start hb, start_atom ht, he, bind_mk, atom, writeComma_false,
      spell_st C _ _ _ _ (show Cut tok from ha), op_mk]
    simp [typed, wrap, Val.text, Members.text, Members.textMore]
  | .arr w items, parent, r, b, out, f, d, ht, hf, hk, ha, hb, he => by
    simp only [Val.Fit] at hf
    simp only [Val.Keys] at hk
    simp only [Atoms] at ha
    obtain ⟨f', h⟩ := items_typed items (parent :: r) (out ++ 123 :: nl C.pretty ++ (ind C.pretty (d + 1) ++ 34 :: 76 :: 34 :: 58 :: 91 :: nl C.pretty))
      false f (d + 1) hf.2 hk ha
    refine ⟨f', ?_⟩
    simp only [Val.scan, Handler.around, guardH_start hb, start_array ht, he, bind_mk, arrayBegin_st, op_mk, if_pos hf.1, h, Out.bind, Handler.end,
      guardH_finish (Cfg.well C _ _ _ _)]
    simp only [handler, ht, if_false, arrayEnd_st]
    rw [← array_text C.pretty d w items]
    simp
  | .obj w members, parent, r, b, out, f, d, ht, hf, hk, ha, hb, he => by
    simp only [Val.Fit] at hf
    simp only [Val.Keys] at hk
    simp only [Atoms] at ha
    obtain ⟨f', h⟩ := members_typed members (parent :: r) (out ++ 123 :: nl C.pretty ++ (ind C.pretty (d + 1) ++ 34 :: 77 :: 34 :: 58 :: 123 :: nl C.pretty))
      false f (d + 2) hf hk ha
    refine ⟨f', ?_⟩
    simp only [Val.scan, Handler.around, guardH_start hb, start_object ht, he, bind_mk, objectBegin_st, op_mk, h, Out.bind, Handler.end,
      guardH_finish (Cfg.well C _ _ _ _)]
    simp only [handler, ht, if_false, objectEnd_st]
    have := object_text C.pretty (d + 2) (nl C.pretty ++ ind C.pretty (d + 1)) members
    simp only [typed, wrap]
    rw [Val.text]
    simp only [Members.text]
    rw [← this]
    simp [Members.textMore]
theorem items_typed : ∀ (is : Items) (path : List Bytes) (out : Bytes) (c : Bool) (f : Option Bytes) (e : Nat),
    is.Fit R (nameArray :: path) → is.Keys Usual → AtomsItems Cut is →
    ∃ f', is.scan guarded R (nameArray :: path) (C.st out c f e) =
      .done (C.st (out ++ itemsOut C.pretty c e is) (itemsComma c is) f' e)
  | .nil, path, out, c, f, e, _, _, _ => ⟨f, by simp [Items.scan, itemsOut, itemsComma]⟩
  | .cons _ v _ more, path, out, c, f, e, hf, hk, ha => by
    simp only [Items.Fit] at hf
    simp only [Items.Keys] at hk
    simp only [AtomsItems] at ha
    obtain ⟨f', h⟩ := scan_typed v nameArray path (C.st out c f e) (out ++ lead C.pretty c) f e (by decide) hf.1 hk.1 ha.1 (Cfg.well C _ _ _ _)
      (by simp [entry, elementBegin_st])
    obtain ⟨f'', h'⟩ := items_typed more path (out ++ lead C.pretty c ++ (typed C.pretty e v).text) true f' e hf.2 hk.2 ha.2
    refine ⟨f'', ?_⟩
    rw [itemsOut_true, itemsComma_true] at h'
    simp only [Items.scan, h, Out.bind, h', itemsOut, itemsComma]
    simp only [List.append_assoc]
theorem members_typed : ∀ (ms : Members) (path : List Bytes) (out : Bytes) (c : Bool) (f : Option Bytes) (e : Nat),
    ms.Fit R path → ms.Keys Usual → AtomsMembers Cut ms →
    ∃ f', ms.scan guarded R path (C.st out c f e) =
      .done (C.st (out ++ membersOut C.pretty c e ms) (membersComma c ms) f' e)
  | .nil, path, out, c, f, e, _, _, _ => ⟨f, by simp [Members.scan, membersOut, membersComma]⟩
  | .cons _ k _ _ v _ more, path, out, c, f, e, hf, hk, ha => by
    simp only [Members.Fit] at hf
    simp only [Members.Keys] at hk
    simp only [AtomsMembers] at ha
    obtain ⟨hk1, hk2⟩ := (usual_iff k).1 hk.1
    obtain ⟨f', h⟩ := scan_typed v k path (C.st (out ++ (lead C.pretty c ++ (ind C.pretty e ++ 34 :: (k ++ 34 :: 58 :: 123 :: nl C.pretty)))) false (some k) (e + 1))
      (out ++ (lead C.pretty c ++ (ind C.pretty e ++ 34 :: (k ++ [34, 58])))) (some k) e hk1 hf.2.1 hk.2.1 ha.1 (Cfg.well C _ _ _ _)
      (by simp [entry, hk2])
    obtain ⟨f'', h'⟩ := members_typed more path (out ++ (lead C.pretty c ++ (ind C.pretty e ++ 34 :: (k ++ [34, 58]))) ++ (typed C.pretty e v).text)
      true f' e hf.2.2 hk.2.2 ha.2
    refine ⟨f'', ?_⟩
    have hs : guarded.start .none (k :: path) v (C.st out c f e) =
        (C.st (out ++ (lead C.pretty c ++ (ind C.pretty e ++ 34 :: (k ++ 34 :: 58 :: 123 :: nl C.pretty)))) false (some k) (e + 1), .none) := by
      rw [guardH_start (Cfg.well C _ _ _ _)]
      simp only [handler, hk1, if_false, fieldKey_st, op_mk]
    have hfin : ∀ b, Well sound b → guarded.finish .none (k :: path) b = (b, none) := by
      intro b hb
      rw [guardH_finish hb]
      simp only [handler, hk1, if_false]
    rw [membersOut_true, membersComma_true] at h'
    simp only [Members.scan, if_pos hf.1, Handler.around, hs, h, Out.bind, Handler.end, hfin _ (Cfg.well C _ _ _ _), h', membersOut, membersComma]
    simp
end

/-! ## Documents -/

theorem literal_st {tok : Bytes} (C : Cfg) (out : Bytes) (f : Option Bytes) (h : Cut tok) :
    literal tok (C.st out false f 0) = (C.st (out ++ ((typedDoc C.item C.pretty (.atom tok)).text ++ [10])) false f 0, none) := by
  simp only [literal, put_st, bind_mk, inc_st, atom, writeComma_false, spell_st C _ _ _ _ h, setComma_st]
  simp [typedDoc, Val.text, Members.text, Members.textMore, ind]

theorem rootObject_text (item p : Bool) (w : Bytes) (members : Members) :
    (typedDoc item p (.obj w members)).text =
      if item then 123 :: (nl p ++ (ind p 1 ++ 34 :: 73 :: 116 :: 101 :: 109 :: 34 :: 58 :: 123 :: (nl p ++ (membersOut p false 2 members ++
        (nl p ++ (ind p 1 ++ 125 :: (nl p ++ [125])))))))
      else 123 :: (nl p ++ (membersOut p false 1 members ++ (nl p ++ [125]))) := by
  cases item
  · rw [if_neg (by simp), object_text]
    rfl
  · have := object_text p 2 (nl p ++ ind p 1) members
    rw [if_pos rfl, show typedDoc true p (.obj w members) = wrap p 0 [73, 116, 101, 109] (.obj (closeMembers (nl p ++ (nl p ++ ind p 1)) members)
      (typedMembers p 2 (nl p ++ ind p 1) members)) from rfl]
    simp only [wrap]
    rw [Val.text]
    simp only [Members.text]
    rw [← this]
    simp [Members.textMore, ind]

theorem doc_typed (v : Val) (r : List Bytes) (out : Bytes) (c : Bool) (f : Option Bytes) (hc : c = true → ∀ tok, v ≠ .atom tok)
    (hf : v.Fit R (nameTop :: r)) (hk : v.Keys Usual) (ha : Atoms Cut v) :
    ∃ f', v.scan guarded R (nameTop :: r) (C.st out c f 0) =
      .done (C.st (out ++ ((typedDoc C.item C.pretty v).text ++ [10])) (compound v) f' 0) := by
  cases v with
  | atom tok =>
    have hc : c = false := by cases c <;> simp at hc ⊢
    subst hc
    refine ⟨f, ?_⟩
    simp only [Val.scan, Handler.around, guardH_start (Cfg.well C _ _ _ _)]
    simp only [handler, if_true, Val.text, literal_st C out f (show Cut tok from ha), op_mk]
    rfl
  | arr w items =>
    simp only [Val.Fit] at hf
    simp only [Val.Keys] at hk
    simp only [Atoms] at ha
    obtain ⟨f', h⟩ := items_typed (C := C) R items (nameTop :: r) (out ++ (123 :: (nl C.pretty ++ (ind C.pretty 1 ++ 34 :: 76 :: 34 :: 58 :: 91 :: nl C.pretty))))
      false f 1 hf.2 hk ha
    refine ⟨f', ?_⟩
    have hs : guarded.start .array (nameTop :: r) (.arr w items) (C.st out c f 0) =
        (C.st (out ++ (123 :: (nl C.pretty ++ (ind C.pretty 1 ++ 34 :: 76 :: 34 :: 58 :: 91 :: nl C.pretty)))) false f 1, .none) := by
      rw [guardH_start (Cfg.well C _ _ _ _)]
      simp [handler, rootArray, arrayBegin_st]
    simp only [Val.scan, Handler.around, hs, if_pos hf.1, h, Out.bind, Handler.end, guardH_finish (Cfg.well C _ _ _ _)]
    simp only [handler, if_true, rootArrayEnd, arrayEnd_st, bind_mk, put_st]
    rw [show typedDoc C.item C.pretty (.arr w items) = typed C.pretty 0 (.arr w items) from rfl, ← array_text C.pretty 0 w items]
    simp [compound]
  | obj w members =>
    simp only [Val.Fit] at hf
    simp only [Val.Keys] at hk
    simp only [Atoms] at ha
    have hcm : membersComma false members = compound (.obj w members) := by cases members <;> rfl
    rcases C with ⟨_ | _, u, p⟩
    · obtain ⟨f', h⟩ := members_typed (C := ⟨false, u, p⟩) R members (nameTop :: r) (out ++ (123 :: nl p)) false f 1 hf hk ha
      refine ⟨f', ?_⟩
      have hs : guarded.start .object (nameTop :: r) (.obj w members) (Cfg.st ⟨false, u, p⟩ out c f 0) =
          (Cfg.st ⟨false, u, p⟩ (out ++ (123 :: nl p)) false f 1, .none) := by
        rw [guardH_start (Cfg.well _ _ _ _ _)]
        simp only [handler, if_true, rootObjectBegin, show (Cfg.st ⟨false, u, p⟩ out c f 0).item = false from rfl, Bool.false_eq_true, if_false]
        simp
      have he : ∀ o c f, (Cfg.st ⟨false, u, p⟩ o c f 1).rootObjectEnd = (Cfg.st ⟨false, u, p⟩ (o ++ (nl p ++ [125, 10])) c f 0, none) := by
        intro o c f
        simp only [rootObjectEnd, newline_st, bind_mk, dec_st, indent_st, show ∀ o c f d, (Cfg.st ⟨false, u, p⟩ o c f d).item = false from fun _ _ _ _ => rfl,
          Bool.false_eq_true, if_false, put_st]
        simp [ind]
      simp only [Val.scan, Handler.around, hs, h, Out.bind, Handler.end, guardH_finish (Cfg.well _ _ _ _ _)]
      simp only [handler, if_true, he]
      rw [hcm, rootObject_text]
      simp
    · obtain ⟨f', h⟩ := members_typed (C := ⟨true, u, p⟩) R members (nameTop :: r)
        (out ++ (123 :: (nl p ++ (ind p 1 ++ 34 :: 73 :: 116 :: 101 :: 109 :: 34 :: 58 :: 123 :: nl p)))) false f 2 hf hk ha
      refine ⟨f', ?_⟩
      have hs : guarded.start .object (nameTop :: r) (.obj w members) (Cfg.st ⟨true, u, p⟩ out c f 0) =
          (Cfg.st ⟨true, u, p⟩ (out ++ (123 :: (nl p ++ (ind p 1 ++ 34 :: 73 :: 116 :: 101 :: 109 :: 34 :: 58 :: 123 :: nl p)))) false f 2, .none) := by
        rw [guardH_start (Cfg.well _ _ _ _ _)]
        simp only [handler, if_true, rootObjectBegin, show (Cfg.st ⟨true, u, p⟩ out c f 0).item = true from rfl]
        simp
      have he : ∀ o c f, (Cfg.st ⟨true, u, p⟩ o c f 2).rootObjectEnd =
          (Cfg.st ⟨true, u, p⟩ (o ++ (nl p ++ (ind p 1 ++ 125 :: (nl p ++ [125, 10])))) c f 0, none) := by
        intro o c f
        simp only [rootObjectEnd, newline_st, bind_mk, dec_st, indent_st, show ∀ o c f d, (Cfg.st ⟨true, u, p⟩ o c f d).item = true from fun _ _ _ _ => rfl,
          if_true, put_st]
        simp [ind]
      simp only [Val.scan, Handler.around, hs, h, Out.bind, Handler.end, guardH_finish (Cfg.well _ _ _ _ _)]
      simp only [handler, if_true, he]
      rw [hcm, rootObject_text]
      simp

theorem docs_typed : ∀ (ds : Docs) (out : Bytes) (c : Bool) (f : Option Bytes),
    (c = true → ∀ b tok r, ds ≠ (b, .atom tok) :: r) → Calm ds → Docs.Fit R [nameTop] ds → (∀ d ∈ ds, d.2.Keys Usual) →
    (∀ d ∈ ds, Atoms Cut d.2) →
    ∃ c' f', Docs.scan guarded R [nameTop] ds (C.st out c f 0) = .done (C.st (out ++ typedDocs C.item C.pretty ds) c' f' 0)
  | [], out, c, f, _, _, _, _, _ => ⟨c, f, by simp [Docs.scan, typedDocs]⟩
  | (b, v) :: ds, out, c, f, hc, hcalm, hf, hk, ha => by
    obtain ⟨f', h⟩ := doc_typed (C := C) R v [] out c f (fun e tok hv => hc e b tok ds (by rw [hv])) hf.1 (hk (b, v) (by simp))
      (ha (b, v) (by simp))
    obtain ⟨c', f'', h'⟩ := docs_typed ds (out ++ ((typedDoc C.item C.pretty v).text ++ [10])) (compound v) f'
      (by
        intro e b' tok r hds
        have := hcalm [] b v b' tok r (by rw [hds]; rfl)
        rw [this] at e
        cases e)
      (by
        intro l b1 v1 b2 tok r hds
        exact hcalm ((b, v) :: l) b1 v1 b2 tok r (by rw [hds]; rfl))
      hf.2 (fun d hd => hk d (by simp [hd])) (fun d hd => ha d (by simp [hd]))
    refine ⟨c', f'', ?_⟩
    simp only [Docs.scan, h, Out.bind, h', typedDocs]
    simp

end ToDdb

/-- The stack that a converter makes. -/
theorem pool_new (cb : Bytes) (n : Nat) (h0 : n ≠ 0) (h1 : n < 2 ^ 60) (h : 4 * n < cb.length) :
    ∃ pool, U8Pool.new cb n = .ok pool ∧ Holds pool ⟨cb.length - 4 * n, n, n⟩ [] := by
  obtain ⟨pool, hp⟩ : ∃ pool, U8Pool.new cb n = .ok pool := by
    unfold U8Pool.new
    have : U8Pool.descSize = 4 := rfl
    rw [if_neg h0, if_neg (by intro h'; simp [h'] at h)]
    dsimp only
    rw [if_neg (by rw [this, Nat.mod_eq_of_lt (by omega)]; omega)]
    exact ⟨_, rfl⟩
  refine ⟨pool, hp, ?_⟩
  have := U8Pool.Rel.new hp
  unfold U8Pool.Spec.init at this
  rw [Nat.mod_eq_of_lt (by omega), show n * 4 / 4 = n by omega, Nat.mul_comm n 4] at this
  exact this

/-- Property C47. From a stream of documents `convert_normal_to_ddb` writes each of them with its types, and each is followed by a
newline; it returns without an error. The indentation, the wrapper `Item` and flushing after each write are as asked for. `M`, `L` and `F`
say how the input is delivered and how large the buffer is, as in C31.

The full statement is without the conditions `hk` (no key is `#top` or `#array`), `ha` (no number has more than 32 bytes) and `hc` (no
literal comes directly after an array or an object with members). It is false: `C47_long_number`, `C47_comma`, `C47_array_key` and
`C47_top_key`. The conditions on the input that are left in `Inv` and `Meets` are those of C31. -/
theorem C47_output_partial (M : Mode) (L F : Nat) (reader : Reader) (rb cb : Bytes) (out : Bytes) (pretty unbuffered item : Bool) (ds : Docs) (tail : Bytes)
    (hi : Inv M L F (.new reader rb)) (hcb : 141 ≤ cb.length) (hr : reader.pending = Docs.text ds tail) (hm : Docs.Meets (rules M L) ds tail)
    (hf : Docs.Fit ⟨cb.length - 136, 34, 34⟩ [nameTop] ds) (hk : ∀ d ∈ ds, d.2.Keys Usual) (ha : ∀ d ∈ ds, Atoms Short d.2) (hc : Calm ds)
    (turns : Nat) (ht : ds.length + reader.pending.length + 1 ≤ turns) :
    (convertNormalToDdb turns F reader ⟨⟨out, []⟩, []⟩ rb cb pretty unbuffered item).2 = .ok ∧
    (convertNormalToDdb turns F reader ⟨⟨out, []⟩, []⟩ rb cb pretty unbuffered item).1.d.w.out = out ++ typedDocs item pretty ds := by
  obtain ⟨pool, hp, hh⟩ := pool_new cb 34 (by decide) (by decide) (by omega)
  have hrest : (RJ.new reader rb).rest = Docs.text ds tail := by
    rw [← hr, rest_new]
  have h := scan_docs_on (opt := ⟨[], false⟩) (ToDdb.implements (M := M) (L := L) (F := F)) (ToDdb.callbacks_keep F ToDdb.sound) rfl tail [] ds
    ⟨.new reader rb, .new ⟨⟨out, []⟩, []⟩ item pretty unbuffered, pool⟩ (ToDdb.well_iff.2 ⟨rfl, rfl, rfl⟩) hi (ready_new _ _)
    (R := ⟨cb.length - 136, 34, 34⟩) hh ⟨by simp [names], by simp [names, usedNames, nameTop]; omega, by decide, by decide, by simp [names]⟩ hm hrest
  obtain ⟨c', f', e⟩ := ToDdb.docs_typed (C := ⟨item, unbuffered, pretty⟩) ⟨cb.length - 136, 34, 34⟩ ds out false none nofun hc hf hk (ToDdb.cut_docs ds tail hm ha)
  simp only [names, List.map_nil] at h
  rw [show ToDdb.new ⟨⟨out, []⟩, []⟩ item pretty unbuffered = ToDdb.Cfg.st ⟨item, unbuffered, pretty⟩ out false none 0 from rfl, e] at h
  obtain ⟨st', h1, _, h2⟩ := h
  have h2 := h2 turns (by rw [hrest, ← hr]; exact ht)
  unfold convertNormalToDdb
  simp only [hp]
  rw [show ToDdb.new ⟨⟨out, []⟩, []⟩ item pretty unbuffered = ToDdb.Cfg.st ⟨item, unbuffered, pretty⟩ out false none 0 from rfl, h2]
  simp only [h1]
  exact ⟨trivial, rfl⟩

/-- Property C46, the part that holds: on such streams the converter returns. The full statement is for all inputs; it is false, see
`C46_endless`. -/
theorem C46_returns_partial (M : Mode) (L F : Nat) (reader : Reader) (rb cb : Bytes) (out : Bytes) (pretty unbuffered item : Bool) (ds : Docs) (tail : Bytes)
    (hi : Inv M L F (.new reader rb)) (hcb : 141 ≤ cb.length) (hr : reader.pending = Docs.text ds tail) (hm : Docs.Meets (rules M L) ds tail)
    (hf : Docs.Fit ⟨cb.length - 136, 34, 34⟩ [nameTop] ds) (hk : ∀ d ∈ ds, d.2.Keys Usual) (ha : ∀ d ∈ ds, Atoms Short d.2) (hc : Calm ds) :
    ∃ turns r, r ≠ .diverge ∧ ∀ n, turns ≤ n → (convertNormalToDdb n F reader ⟨⟨out, []⟩, []⟩ rb cb pretty unbuffered item).2 = r :=
  ⟨ds.length + reader.pending.length + 1, .ok, nofun, fun n hn =>
    (C47_output_partial M L F reader rb cb out pretty unbuffered item ds tail hi hcb hr hm hf hk ha hc n hn).1⟩

/-! ## Examples -/

theorem spaces_nil : Spaces [] := by intro c hc; simp at hc
theorem spaces_one : Spaces [32] := by intro c hc; simp at hc; subst hc; unfold Space; decide

theorem number_digit (c : Byte) (h : Digit c) (h0 : c ≠ 48) : Number [c] :=
  ⟨[], [c], [], [], rfl, .inl rfl, .inr ⟨⟨by simp, by intro x hx; simp at hx; subst hx; exact h⟩, by simpa using h0⟩, .inl rfl, .inl rfl⟩

theorem raw_ascii : ∀ (body : Bytes), (∀ c ∈ body, 32 ≤ c.toNat ∧ c.toNat < 128 ∧ c ≠ 34 ∧ c ≠ 92) → RawBody body
  | [], _ => .nil
  | c :: r, h => by
    have hc := h c (by simp)
    have key : ∀ n < 128, (n ≠ 34 ∧ n ≠ 92 ∧ 32 ≤ n) → enc (Char.ofNat n) = [UInt8.ofNat n] ∧ (32 ≤ (Char.ofNat n).toNat ∧ Char.ofNat n ≠ '"' ∧ Char.ofNat n ≠ '\\') := by
      decide +kernel
    obtain ⟨h1, h2⟩ := key c.toNat hc.2.1 ⟨fun e => hc.2.2.1 (UInt8.toNat_inj.1 e), fun e => hc.2.2.2 (UInt8.toNat_inj.1 e), hc.1⟩
    have := RawBody.char _ r h2 (raw_ascii r fun x hx => h x (by simp [hx]))
    rw [h1] at this
    simpa using this

theorem ends_five : Ends (.atom [53]) [32] := fun _ =>
  ⟨by intro c hc; simp at hc; subst hc; unfold Digit; decide, by decide⟩

theorem number_five : Number [53] := number_digit 53 (by unfold Digit; decide) (by decide)

theorem not_number_string (r : Bytes) : ¬ Number (34 :: r) := by
  intro h
  obtain ⟨c, r', e, hc⟩ := number_first h
  injection e with e _
  subst e
  revert hc
  decide

/-- `"x" [1] {"k":null} {} 5 ` -/
def exStream : Docs :=
  [([], .atom [34, 120, 34]), ([32], .arr [] (.cons [] (.atom [49]) [] .nil)),
   ([32], .obj [] (.cons [] [107] [] [] (.atom [110, 117, 108, 108]) [] .nil)), ([32], .obj [] .nil), ([32], .atom [53])]

theorem exStream_meets : Docs.Meets (rules wholeMode 8) exStream [32] :=
  ⟨spaces_nil, .string [120] raw_x trivial, trivial, fun h => absurd h (not_number_string _),
   spaces_one, ⟨spaces_nil, spaces_nil, .number _ number_one (by decide), spaces_nil, trivial⟩, trivial, trivial,
   spaces_one, ⟨spaces_nil, spaces_nil, ⟨raw_k, by decide⟩, spaces_nil, spaces_nil, .null, trivial, spaces_nil, trivial⟩, trivial, trivial,
   spaces_one, ⟨spaces_nil, trivial⟩, trivial, trivial,
   spaces_one, .number _ number_five (by decide), trivial, ends_five, spaces_one⟩

/-- The reader for a text in one piece. -/
def whole (text : Bytes) : Reader := text.head?.toList.map fun c => .data c text.tail

/-- `[1] 5 ` -/
def exComma : Docs := [([], .arr [] (.cons [] (.atom [49]) [] .nil)), ([32], .atom [53])]

/-- A number with 33 digits. -/
def exLong : Docs := [([], .atom (List.replicate 33 49))]

/-- An object with a single key, `{"k":5}`. -/
def exKey (k : Bytes) : Docs := [([], .obj [] (.cons [] k [] [] (.atom [53]) [] .nil))]

/-- The hypotheses of `C47_output_partial` on the stream above. -/
example : Inv wholeMode 8 200 (.new (whole (Docs.text exStream [32])) (List.replicate 40 0)) ∧
    (whole (Docs.text exStream [32])).pending = Docs.text exStream [32] ∧
    Docs.text exStream [32] = "\"x\" [1] {\"k\":null} {} 5 ".toUTF8.toList ∧
    Docs.Meets (rules wholeMode 8) exStream [32] ∧ Docs.Fit ⟨200 - 136, 34, 34⟩ [nameTop] exStream ∧ (∀ d ∈ exStream, d.2.Keys Usual) ∧
    (∀ d ∈ exStream, Atoms Short d.2) ∧ Calm exStream ∧
    typedDocs true false exStream =
      "{\"S\":\"x\"}\n{\"L\":[{\"N\":\"1\"}]}\n{\"Item\":{\"k\":{\"NULL\":true}}}\n{\"Item\":{}}\n{\"N\":\"5\"}\n".toUTF8.toList := by
  have hs : ∀ tok : Bytes, tok.length ≤ 32 → Short tok := fun _ h _ => h
  refine ⟨whole_new _ _ 8 200 (by simp [whole, exStream, Docs.text, Val.text, Reader.OneChunk]) (by decide) (by decide) (by decide) (by decide), by decide +kernel, by decide +kernel,
    exStream_meets, ⟨trivial, ⟨by decide, trivial, trivial⟩, ⟨by decide, trivial, trivial⟩, trivial, trivial, trivial⟩, ?_, ?_, ?_, by decide +kernel⟩
  · intro d hd
    simp only [exStream, List.mem_cons, List.not_mem_nil, or_false] at hd
    rcases hd with rfl | rfl | rfl | rfl | rfl
    · trivial
    · exact ⟨trivial, trivial⟩
    · exact ⟨by rw [usual_iff]; decide, trivial, trivial⟩
    · trivial
    · trivial
  · intro d hd
    simp only [exStream, List.mem_cons, List.not_mem_nil, or_false] at hd
    rcases hd with rfl | rfl | rfl | rfl | rfl
    · exact hs _ (by decide)
    · exact ⟨hs _ (by decide), trivial⟩
    · exact ⟨hs _ (by decide), trivial⟩
    · trivial
    · exact hs _ (by decide)
  · intro l b v b' tok r h
    unfold exStream at h
    rcases l with _ | ⟨x1, _ | ⟨x2, _ | ⟨x3, _ | ⟨x4, _ | ⟨x5, l⟩⟩⟩⟩⟩ <;> simp at h
    obtain ⟨_, _, _, ⟨_, h⟩, _⟩ := h
    subst h
    rfl

/-- What comes out of the model for it, indented. -/
example : (convertNormalToDdb 40 200 (whole (Docs.text exStream [32])) ⟨⟨[], []⟩, []⟩ (List.replicate 40 0) (List.replicate 200 0)
    true false false).1.d.w.out = typedDocs false true exStream := by decide +kernel

/-- Negation of C47 without the condition on numbers: only the first 32 of the 33 digits are written. -/
theorem C47_long_number : Docs.Meets (rules wholeMode 40) exLong [32] ∧ Calm exLong ∧
    (convertNormalToDdb 40 200 (whole (Docs.text exLong [32])) ⟨⟨[], []⟩, []⟩ (List.replicate 40 0) (List.replicate 200 0) false false false).2 = .ok ∧
    (convertNormalToDdb 40 200 (whole (Docs.text exLong [32])) ⟨⟨[], []⟩, []⟩ (List.replicate 40 0) (List.replicate 200 0) false false false).1.d.w.out =
      "{\"N\":\"".toUTF8.toList ++ List.replicate 32 49 ++ "\"}\n".toUTF8.toList := by
  refine ⟨⟨spaces_nil, .number _ ⟨[], List.replicate 33 49, [], [], by simp, .inl rfl, .inr ⟨⟨by decide, ?_⟩, by decide⟩, .inl rfl, .inl rfl⟩ (by decide), trivial,
    fun _ => ⟨by intro c hc; simp [Docs.text] at hc; subst hc; unfold Digit; decide, by decide⟩, spaces_one⟩, ?_, by decide +kernel, by decide +kernel⟩
  · intro c hc
    obtain rfl := List.eq_of_mem_replicate hc
    unfold Digit
    decide
  · intro l b v b' tok r h
    unfold exLong at h
    rcases l with _ | ⟨x1, l⟩ <;> simp at h

/-- Negation of C47 without the condition on the order of documents: for `[1] 5 ` the second line is `{,"N":"5"}`. -/
theorem C47_comma : Docs.Meets (rules wholeMode 40) exComma [32] ∧ (∀ d ∈ exComma, Atoms Short d.2) ∧
    (convertNormalToDdb 40 200 (whole (Docs.text exComma [32])) ⟨⟨[], []⟩, []⟩ (List.replicate 40 0) (List.replicate 200 0) false false false).2 = .ok ∧
    (convertNormalToDdb 40 200 (whole (Docs.text exComma [32])) ⟨⟨[], []⟩, []⟩ (List.replicate 40 0) (List.replicate 200 0) false false false).1.d.w.out =
      "{\"L\":[{\"N\":\"1\"}]}\n{,\"N\":\"5\"}\n".toUTF8.toList := by
  refine ⟨⟨spaces_nil, ⟨spaces_nil, spaces_nil, .number _ number_one (by decide), spaces_nil, trivial⟩, trivial, trivial,
   spaces_one, .number _ number_five (by decide), trivial, ends_five, spaces_one⟩, ?_, by decide +kernel, by decide +kernel⟩
  intro d hd
  simp only [exComma, List.mem_cons, List.not_mem_nil, or_false] at hd
  rcases hd with rfl | rfl
  · exact ⟨fun _ => by decide, trivial⟩
  · exact fun _ => by decide

theorem exKey_meets (k : Bytes) (hk : RawBody k) (hl : k.length ≤ 30) : Docs.Meets (rules wholeMode 40) (exKey k) [] ∧ Calm (exKey k) ∧
    (∀ d ∈ exKey k, Atoms Short d.2) := by
  refine ⟨⟨spaces_nil, ⟨spaces_nil, spaces_nil, ⟨hk, by show k.length + 0 + 4 ≤ 40; omega⟩, spaces_nil, spaces_nil, .number _ number_five (by decide), trivial, spaces_nil,
    trivial⟩, trivial, trivial, spaces_nil⟩, ?_, ?_⟩
  · intro l b v b' tok r h
    unfold exKey at h
    rcases l with _ | ⟨x1, l⟩ <;> simp at h
  · intro d hd
    simp only [exKey, List.mem_cons, List.not_mem_nil, or_false] at hd
    subst hd
    exact ⟨fun _ => by decide, trivial⟩

/-- Negation of C47 without the condition on keys: for `{"#array":5}` there is a brace too many. -/
theorem C47_array_key : Docs.Meets (rules wholeMode 40) (exKey nameArray) [] ∧ Calm (exKey nameArray) ∧ (∀ d ∈ exKey nameArray, Atoms Short d.2) ∧
    (convertNormalToDdb 40 200 (whole (Docs.text (exKey nameArray) [])) ⟨⟨[], []⟩, []⟩ (List.replicate 40 0) (List.replicate 200 0) false false false).2 = .ok ∧
    (convertNormalToDdb 40 200 (whole (Docs.text (exKey nameArray) [])) ⟨⟨[], []⟩, []⟩ (List.replicate 40 0) (List.replicate 200 0)
      false false false).1.d.w.out = "{\"#array\":{{\"N\":\"5\"}}\n".toUTF8.toList := by
  obtain ⟨h1, h2, h3⟩ := exKey_meets nameArray (raw_ascii _ (by decide)) (by decide)
  exact ⟨h1, h2, h3, by decide +kernel, by decide +kernel⟩

/-- Negation of C47 without the condition on keys: of `{"#top":5}` the key is not written. -/
theorem C47_top_key : Docs.Meets (rules wholeMode 40) (exKey nameTop) [] ∧ Calm (exKey nameTop) ∧ (∀ d ∈ exKey nameTop, Atoms Short d.2) ∧
    (convertNormalToDdb 40 200 (whole (Docs.text (exKey nameTop) [])) ⟨⟨[], []⟩, []⟩ (List.replicate 40 0) (List.replicate 200 0) false false false).2 = .ok ∧
    (convertNormalToDdb 40 200 (whole (Docs.text (exKey nameTop) [])) ⟨⟨[], []⟩, []⟩ (List.replicate 40 0) (List.replicate 200 0)
      false false false).1.d.w.out = "{{\"N\":\"5\"}\n}\n".toUTF8.toList := by
  obtain ⟨h1, h2, h3⟩ := exKey_meets nameTop (raw_ascii _ (by decide)) (by decide)
  exact ⟨h1, h2, h3, by decide +kernel, by decide +kernel⟩

end Verif.Ddb
