import Verif.Ddb.Fail
import Verif.Ddb.NormalFail
import Verif.Scan.Faults

/-!
# A writer that fails, compared with one that does not: the converters (property C74)
-/

namespace Verif.Ddb

open Verif.U8Pool (Pool)
open Verif.RJiter
open Verif.Scan (Action EndAction Acted Pseudo Ctx nameTop nameArray scan Stays Follows Until scan_led writeAll_led handleLong_led
  handleLong_wrote)

/-- A destination with the same contents that never fails. -/
def Dest.perfect (d : Dest) : Dest := ⟨d.w.perfect, []⟩

theorem flush_w (d : Dest) : d.flush.1.w = d.w := by
  rcases d with ⟨w, _ | ⟨r, fs⟩⟩ <;> rfl

theorem write_led (d : Dest) (u : Bool) (bs : Bytes) :
    (∃ d', d.write u bs = (d', none) ∧ d.perfect.write false bs = (d'.perfect, none)) ∨
    (∃ d' k, d.write u bs = (d', some k) ∧ ∃ e, d.perfect.write false bs = (e, none) ∧ d'.w.out <+: e.w.out) := by
  unfold Dest.write
  rw [show d.perfect.w = d.w.perfect from rfl]
  rcases writeAll_led d.w bs with ⟨w', h, h'⟩ | ⟨w', k, h, h1, h2⟩
  · rw [h, h']
    simp only [Bool.false_eq_true, if_false]
    cases u
    · exact .inl ⟨_, rfl, rfl⟩
    · simp only [if_true]
      have hf := flush_w { d with w := w' }
      revert hf
      rcases ({ d with w := w' } : Dest).flush with ⟨d2, _ | k⟩
      · intro hf
        refine .inl ⟨d2, rfl, ?_⟩
        simp only at hf
        simp only [Dest.perfect, hf]
      · intro hf
        refine .inr ⟨d2, k, rfl, _, rfl, ?_⟩
        simp only at hf
        rw [hf]
        exact List.prefix_rfl
  · rw [h]
    revert h1 h2
    rcases d.w.perfect.writeAll bs with ⟨w2, _ | _⟩
    · exact fun _ h2 => .inr ⟨_, k, rfl, _, rfl, h2⟩
    · exact nofun

theorem write_adds (d : Dest) (u : Bool) (bs : Bytes) : d.w.out <+: (d.write u bs).1.w.out := by
  rcases write_kinds d u bs with ⟨_, h⟩ | ⟨_, _, h⟩ <;> obtain ⟨_, _, _, _, h, _⟩ := h <;> exact h

namespace ToDdb

/-- The same state with the perfect writer, which is not flushed. -/
def perfect (b : ToDdb) : ToDdb := { b with d := b.d.perfect, unbuffered := false }

/-- A step with a writer, and the same step with the perfect one. -/
def LedStep (x y : Step) : Prop := y = (x.1.perfect, x.2) ∨ ((∃ m, x.2 = some m) ∧ x.1.d.w.out <+: y.1.d.w.out)

/-- A step that depends on the writer only as far as it fails, and only adds to the output. -/
def Smooth (k : ToDdb → Step) : Prop := ∀ b, LedStep (k b) (k b.perfect) ∧ b.d.w.out <+: (k b).1.d.w.out

theorem Smooth.bind {j k : ToDdb → Step} (hj : Smooth j) (hk : Smooth k) : Smooth fun b => (j b).bind k := by
  intro b
  obtain ⟨h, ha⟩ := hj b
  show LedStep ((j b).bind k) ((j b.perfect).bind k) ∧ b.d.w.out <+: ((j b).bind k).1.d.w.out
  revert h ha
  rcases j b with ⟨b1, _ | m⟩
  · rintro (h | ⟨⟨_, h⟩, _⟩) ha
    · rw [h]
      exact ⟨(hk b1).1, List.IsPrefix.trans ha (hk b1).2⟩
    · cases h
  · rintro (h | ⟨_, h⟩) ha
    · rw [h]
      exact ⟨.inl rfl, ha⟩
    · refine ⟨.inr ⟨⟨m, rfl⟩, ?_⟩, ha⟩
      revert h
      rcases j b.perfect with ⟨b2, _ | m⟩
      · exact fun h => List.IsPrefix.trans h (hk b2).2
      · exact id

theorem smooth_put (bs : Bytes) (c : String) : Smooth (put bs c) := by
  intro b
  unfold put
  have ha := write_adds b.d b.unbuffered bs
  rcases write_led b.d b.unbuffered bs with ⟨d, h, h'⟩ | ⟨d, k, h, d', h', hp⟩
  · rw [show b.perfect.d = b.d.perfect from rfl, show b.perfect.unbuffered = false from rfl, h']
    rw [h] at ha ⊢
    exact ⟨.inl rfl, ha⟩
  · rw [show b.perfect.d = b.d.perfect from rfl, show b.perfect.unbuffered = false from rfl, h']
    rw [h] at ha ⊢
    exact ⟨.inr ⟨⟨_, rfl⟩, hp⟩, ha⟩

theorem smooth_set {f : ToDdb → ToDdb} (h : ∀ b, f b.perfect = (f b).perfect) (hd : ∀ b, (f b).d = b.d) : Smooth fun b => (f b, none) :=
  fun b => ⟨.inl (by simp only [h]), by show b.d.w.out <+: (f b).d.w.out; rw [hd]; exact List.prefix_rfl⟩

theorem smooth_if {c : ToDdb → Bool} (hc : ∀ b, c b.perfect = c b) {j k : ToDdb → Step} (hj : Smooth j) (hk : Smooth k) :
    Smooth fun b => if c b then j b else k b := by
  intro b
  simp only [hc]
  cases c b
  · exact hk b
  · exact hj b

theorem smooth_skip : Smooth fun b => (b, none) := smooth_set (f := id) (fun _ => rfl) fun _ => rfl

theorem smooth_newline : Smooth newline := smooth_if (c := pretty) (fun _ => rfl) (smooth_put _ _) smooth_skip

theorem smooth_writeComma : Smooth writeComma :=
  smooth_if (c := comma) (fun _ => rfl) ((smooth_put _ _).bind (smooth_newline.bind (smooth_set (fun _ => rfl) fun _ => rfl))) smooth_skip

theorem smooth_indentLoop : ∀ n, Smooth (indentLoop n)
  | 0 => smooth_skip
  | n + 1 => (smooth_put _ _).bind (smooth_indentLoop n)

theorem smooth_indent : Smooth indent := by
  intro b
  unfold indent
  rw [show b.perfect.pretty = b.pretty from rfl, show b.perfect.depth = b.depth from rfl]
  cases b.pretty
  · exact smooth_skip b
  · exact smooth_indentLoop b.depth b

theorem smooth_dec : Smooth dec := by
  intro b
  unfold dec
  rw [show b.perfect.depth = b.depth from rfl]
  split
  · exact ⟨.inl rfl, List.prefix_rfl⟩
  · exact ⟨.inl rfl, List.prefix_rfl⟩

theorem smooth_flushLong : Smooth flushLong := by
  intro b
  unfold flushLong
  rw [show b.perfect.unbuffered = false from rfl]
  cases hu : b.unbuffered
  · exact ⟨.inl (by rfl), List.prefix_rfl⟩
  · simp only [if_true]
    have hw := flush_w b.d
    revert hw
    rcases b.d.flush with ⟨d, _ | k⟩
    · intro hw
      simp only at hw
      refine ⟨.inl ?_, by show b.d.w.out <+: d.w.out; rw [hw]; exact List.prefix_rfl⟩
      simp only [perfect, Dest.perfect, hw]
      rfl
    · intro hw
      simp only at hw
      refine ⟨.inr ⟨⟨_, rfl⟩, ?_⟩, by show b.d.w.out <+: d.w.out; rw [hw]; exact List.prefix_rfl⟩
      show d.w.out <+: b.d.w.out
      rw [hw]
      exact List.prefix_rfl

/-- The states are the same, apart from the writer. -/
def Rel (b g : ToDdb) : Prop := g = b.perfect
/-- When a write has failed. -/
def Behind (b g : ToDdb) : Prop := b.d.w.out <+: g.d.w.out

/-- An action that depends on the writer only as far as it fails, and only adds to the output. -/
def SmoothAct (a : Action ToDdb) : Prop := ∀ s b, Follows Rel Behind (a s b) (a s b.perfect) ∧ b.d.w.out <+: (a s b).1.2.d.w.out

theorem smooth_answer (r : Acted) : SmoothAct fun s b => ((s, b), r) := fun _ _ => ⟨.inl ⟨rfl, rfl, rfl⟩, List.prefix_rfl⟩

theorem smooth_run {j : ToDdb → Step} {k : Action ToDdb} (hj : Smooth j) (hk : SmoothAct k) : SmoothAct fun s b => (j b).run s k := by
  intro s b
  obtain ⟨h, ha⟩ := hj b
  show Follows Rel Behind ((j b).run s k) ((j b.perfect).run s k) ∧ b.d.w.out <+: ((j b).run s k).1.2.d.w.out
  revert h ha
  rcases j b with ⟨b1, _ | m⟩
  · rintro (h | ⟨⟨_, h⟩, _⟩) ha
    · rw [h]
      exact ⟨(hk s b1).1, List.IsPrefix.trans ha (hk s b1).2⟩
    · cases h
  · rintro (h | ⟨_, h⟩) ha
    · rw [h]
      exact ⟨.inl ⟨rfl, rfl, rfl⟩, ha⟩
    · refine ⟨.inr ⟨⟨m, rfl⟩, ?_⟩, ha⟩
      revert h
      rcases j b.perfect with ⟨b2, _ | m⟩
      · exact fun h => List.IsPrefix.trans h (hk s b2).2
      · exact id

theorem smooth_act {j : ToDdb → Step} (hj : Smooth j) (op : Scan.StreamOp) : SmoothAct (act j op) := smooth_run hj (smooth_answer _)

/-- `write_long_bytes` and the rest of an action. -/
theorem smooth_long {F : Nat} {k : Action ToDdb} {f : Err → ToDdb → ToDdb} {m : String} (hk : SmoothAct k)
    (hf : ∀ e b, f e b.perfect = (f e b).perfect) (hd : ∀ e b, (f e b).d = b.d) :
    SmoothAct fun rj b =>
      match rj.writeLongBytes F b.d.w with
      | ((rj, w), .ok ()) => k rj { b with d := { b.d with w := w } }
      | ((rj, w), .err e) => ((rj, f e { b with d := { b.d with w := w } }), .op (.error m))
      | ((rj, w), .panic) => ((rj, { b with d := { b.d with w := w } }), .panic)
      | ((rj, w), .diverge) => ((rj, { b with d := { b.d with w := w } }), .diverge) := by
  intro rj b
  simp only
  rw [show b.perfect.d.w = b.d.w.perfect from rfl]
  have hl := handleLong_led .raw F rj b.d.w
  have ha := (handleLong_wrote .raw F rj b.d.w).prefix
  rw [show RJ.handleLong .raw F rj b.d.w = rj.writeLongBytes F b.d.w from rfl] at hl ha
  rw [show RJ.handleLong .raw F rj b.d.w.perfect = rj.writeLongBytes F b.d.w.perfect from rfl] at hl
  rcases hl with hl | ⟨he, hl⟩
  · rw [hl]
    revert ha
    rcases rj.writeLongBytes F b.d.w with ⟨⟨rj2, w2⟩, _ | e | _ | _⟩
    · intro ha
      have h := hk rj2 { b with d := { b.d with w := w2 } }
      exact ⟨h.1, List.IsPrefix.trans ha h.2⟩
    · intro ha
      have h := hf e { b with d := { b.d with w := w2 } }
      exact ⟨.inl ⟨rfl, rfl, h⟩, by simp only [hd]; exact ha⟩
    · exact fun ha => ⟨.inl ⟨rfl, rfl, rfl⟩, ha⟩
    · exact fun ha => ⟨.inl ⟨rfl, rfl, rfl⟩, ha⟩
  · revert he hl ha
    rcases rj.writeLongBytes F b.d.w with ⟨⟨rj2, w2⟩, _ | e | _ | _⟩
    · exact nofun
    · intro ha _ hl
      refine ⟨.inr ⟨⟨_, rfl⟩, ?_⟩, by simp only [hd]; exact ha⟩
      show _ <+: _
      simp only [hd]
      revert hl
      rcases rj.writeLongBytes F b.d.w.perfect with ⟨⟨rj3, w3⟩, _ | e | _ | _⟩
      · intro hl
        exact List.IsPrefix.trans hl (hk rj3 { b.perfect with d := { b.perfect.d with w := w3 } }).2
      · simp only [hd]
        exact id
      · exact id
      · exact id
    · exact nofun
    · exact nofun

theorem smooth_setComma (c : Bool) : Smooth (setComma c) := smooth_set (fun _ => rfl) fun _ => rfl
theorem smooth_inc : Smooth inc := smooth_set (fun _ => rfl) fun _ => rfl

theorem smooth_closeValue : Smooth closeValue :=
  smooth_newline.bind (smooth_dec.bind (smooth_indent.bind ((smooth_put _ _).bind (smooth_setComma _))))

theorem smooth_rootObjectBegin : Smooth rootObjectBegin :=
  smooth_if (c := item) (fun _ => rfl)
    ((smooth_put _ _).bind (smooth_newline.bind (smooth_inc.bind (smooth_indent.bind ((smooth_put _ _).bind
      (smooth_newline.bind (smooth_inc.bind (smooth_setComma _))))))))
    ((smooth_put _ _).bind (smooth_newline.bind (smooth_inc.bind (smooth_setComma _))))

theorem smooth_arrayBegin : Smooth arrayBegin := smooth_indent.bind ((smooth_put _ _).bind (smooth_newline.bind (smooth_setComma _)))

theorem smooth_rootArray : Smooth rootArray := (smooth_put _ _).bind (smooth_newline.bind (smooth_inc.bind smooth_arrayBegin))

theorem smooth_fieldKey : Smooth fieldKey := by
  intro b
  unfold fieldKey
  rw [show b.perfect.field = b.field from rfl]
  rcases b.field with _ | name
  · exact ⟨.inl rfl, List.prefix_rfl⟩
  · exact (smooth_writeComma.bind (smooth_indent.bind ((smooth_put _ _).bind ((smooth_put name _).bind ((smooth_put _ _).bind
      (smooth_newline.bind (smooth_inc.bind (smooth_setComma _)))))))) b

theorem smooth_elementBegin : Smooth elementBegin :=
  smooth_writeComma.bind ((smooth_put _ _).bind (smooth_newline.bind (smooth_inc.bind (smooth_setComma _))))

theorem smooth_objectBegin : Smooth objectBegin :=
  smooth_indent.bind ((smooth_put _ _).bind (smooth_newline.bind (smooth_inc.bind (smooth_setComma _))))

theorem smooth_rootObjectEnd : Smooth rootObjectEnd :=
  smooth_newline.bind (smooth_dec.bind (smooth_indent.bind (Smooth.bind
    (smooth_if (c := item) (fun _ => rfl)
      ((smooth_put _ _).bind (smooth_newline.bind (smooth_dec.bind (smooth_indent.bind (smooth_put _ _)))))
      (smooth_put _ _))
    (smooth_put _ _))))

theorem smooth_objectEnd : Smooth objectEnd :=
  smooth_newline.bind (smooth_dec.bind (smooth_indent.bind ((smooth_put _ _).bind
    (smooth_newline.bind (smooth_dec.bind (smooth_indent.bind ((smooth_put _ _).bind (smooth_setComma _))))))))

theorem smooth_arrayEnd : Smooth arrayEnd :=
  smooth_newline.bind (smooth_indent.bind ((smooth_put _ _).bind (smooth_newline.bind
    (smooth_dec.bind (smooth_indent.bind ((smooth_put _ _).bind (smooth_setComma _)))))))

theorem smooth_rootArrayEnd : Smooth rootArrayEnd := smooth_arrayEnd.bind (smooth_put _ _)

theorem smooth_onString (F : Nat) : SmoothAct (onString F) :=
  smooth_run (smooth_indent.bind (smooth_put _ _))
    (smooth_long (f := fun _ b => b) (smooth_act (smooth_flushLong.bind ((smooth_put _ _).bind smooth_closeValue)) _) (fun _ _ => rfl) fun _ _ => rfl)

theorem smooth_ignoring {α : Type} {k : Action ToDdb} (hk : SmoothAct k) (x : RJ × Res α) (b : ToDdb) :
    Follows Rel Behind (ignoring b k x) (ignoring b.perfect k x) ∧ b.d.w.out <+: (ignoring b k x).1.2.d.w.out := by
  rcases x with ⟨s, _ | _ | _ | _⟩
  · exact hk s b
  · exact hk s b
  · exact smooth_answer _ s b
  · exact smooth_answer _ s b

theorem smooth_onBool (F : Nat) : SmoothAct (onBool F) := by
  intro s b
  unfold onBool
  rcases s.peek F with ⟨s2, c | e | _ | _⟩
  · refine smooth_run smooth_indent ?_ s2 b
    intro s b
    by_cases h1 : c = 116
    · simp only [h1, if_true]
      exact smooth_ignoring (smooth_act ((smooth_put _ _).bind smooth_closeValue) _) _ b
    · simp only [if_neg h1]
      by_cases h2 : c = 102
      · simp only [h2, if_true]
        exact smooth_ignoring (smooth_act ((smooth_put _ _).bind smooth_closeValue) _) _ b
      · simp only [if_neg h2]
        exact smooth_answer _ s b
  · exact smooth_answer _ s2 b
  · exact smooth_answer _ s2 b
  · exact smooth_answer _ s2 b

theorem smooth_onNull (F : Nat) : SmoothAct (onNull F) := by
  intro s b
  unfold onNull
  rcases s.peek F with ⟨s2, c | e | _ | _⟩
  · simp only
    by_cases h1 : c ≠ 110
    · rw [if_pos h1, if_pos h1]
      exact smooth_answer _ s2 b
    · rw [if_neg h1, if_neg h1]
      exact smooth_ignoring (smooth_act (smooth_indent.bind ((smooth_put _ _).bind smooth_closeValue)) _) _ b
  · exact smooth_answer _ s2 b
  · exact smooth_answer _ s2 b
  · exact smooth_answer _ s2 b

theorem smooth_onNumber (F : Nat) : SmoothAct (onNumber F) := by
  intro s b
  unfold onNumber
  rcases s.nextNumberBytes F with ⟨s2, c | e | _ | _⟩
  · exact smooth_act (smooth_indent.bind ((smooth_put _ _).bind ((smooth_put _ _).bind ((smooth_put _ _).bind smooth_closeValue)))) _ s2 b
  · exact smooth_answer _ s2 b
  · exact smooth_answer _ s2 b
  · exact smooth_answer _ s2 b

theorem smooth_onAtom (F : Nat) : SmoothAct (onAtom F) := by
  refine smooth_run smooth_writeComma ?_
  intro s b
  simp only
  rcases s.peek F with ⟨s2, c | e | _ | _⟩
  · simp only
    by_cases h1 : c = 34
    · rw [if_pos h1, if_pos h1]; exact smooth_onString F s2 b
    · rw [if_neg h1, if_neg h1]
      by_cases h2 : c = 116 ∨ c = 102
      · rw [if_pos h2, if_pos h2]; exact smooth_onBool F s2 b
      · rw [if_neg h2, if_neg h2]
        by_cases h3 : c = 110
        · rw [if_pos h3, if_pos h3]; exact smooth_onNull F s2 b
        · rw [if_neg h3, if_neg h3]; exact smooth_onNumber F s2 b
  · exact smooth_answer _ s2 b
  · exact smooth_answer _ s2 b
  · exact smooth_answer _ s2 b

/-- When a write has failed: the output is behind that of the perfect writer, apart from the newline of `on_root_literal`. -/
def Lost (b g : ToDdb) : Prop := b.d.w.out <+: g.d.w.out ∨ ∃ p, p <+: g.d.w.out ∧ b.d.w.out = p ++ [10]

theorem Behind.lost {b g : ToDdb} (h : Behind b g) : Lost b g := .inl h

theorem follows_lost {x y : (RJ × ToDdb) × Acted} (h : Follows Rel Behind x y) : Follows Rel Lost x y := h.imp_right fun h => ⟨h.1, .inl h.2⟩

theorem smooth_end : Smooth fun b => (b.put [10] "writing final newline").bind (setComma false) := (smooth_put _ _).bind (smooth_setComma _)

/-- The rest of `on_root_literal` behind the value. -/
def literalRest : (RJ × ToDdb) × Acted → (RJ × ToDdb) × Acted
  | ((rj, b), .op result) => act (fun b => (b.put [10] "writing final newline").bind (setComma false)) result rj b
  | ((rj, b), r) => ((rj, b), r)

theorem literalRest_adds (x : (RJ × ToDdb) × Acted) : x.1.2.d.w.out <+: (literalRest x).1.2.d.w.out := by
  rcases x with ⟨⟨s, b⟩, op | _ | _⟩
  · exact (smooth_act smooth_end op s b).2
  · exact List.prefix_rfl
  · exact List.prefix_rfl

theorem newline_lost (b : ToDdb) : ((b.put [10] "writing final newline").bind (setComma false)).1.d.w.out = b.d.w.out ∨
    ((b.put [10] "writing final newline").bind (setComma false)).1.d.w.out = b.d.w.out ++ [10] := by
  unfold put Dest.write
  rcases b with ⟨⟨⟨out, _ | ⟨_ | ⟨k, n⟩, plan⟩⟩, fs⟩, _, _, u, _, _, _, _, _⟩ <;> cases u <;>
    rcases fs with _ | ⟨_ | _, _⟩ <;>
    simp only [Writer.writeAll, Dest.flush, Step.bind, setComma, if_true, Bool.false_eq_true, if_false, or_true]
  all_goals
    rcases n with _ | n
    · exact .inl (List.append_nil _)
    · exact .inr (by simp)

theorem follows_onRootLiteral (F : Nat) (s : RJ) (b : ToDdb) :
    Follows Rel Lost (onRootLiteral F s b) (onRootLiteral F s b.perfect) ∧ b.d.w.out <+: (onRootLiteral F s b).1.2.d.w.out := by
  have hstart : Smooth fun b => (b.put [123] "writing root literal opening brace").bind inc := (smooth_put _ _).bind smooth_inc
  have he : ∀ b : ToDdb, onRootLiteral F s b = ((b.put [123] "writing root literal opening brace").bind inc).run s fun rj b => literalRest (onAtom F rj b) := by
    intro b
    unfold onRootLiteral
    rcases (b.put [123] "writing root literal opening brace").bind inc with ⟨b1, _ | m⟩
    · simp only [Step.run]
      rcases onAtom F s b1 with ⟨⟨s2, b2⟩, op | _ | _⟩ <;> rfl
    · rfl
  rw [he, he]
  obtain ⟨h, ha⟩ := hstart b
  simp only [] at h ha
  revert h ha
  rcases (b.put [123] "writing root literal opening brace").bind inc with ⟨b1, _ | m⟩
  · rintro (h | ⟨⟨_, h⟩, _⟩) ha
    · rw [h]
      simp only [Step.run]
      obtain ⟨h1, h2⟩ := smooth_onAtom F s b1
      refine ⟨?_, List.IsPrefix.trans ha (h2.trans (literalRest_adds _))⟩
      revert h1
      rcases onAtom F s b1 with ⟨⟨s2, b2⟩, r⟩
      rcases onAtom F s b1.perfect with ⟨⟨s3, b3⟩, r'⟩
      rintro (⟨e1, e2, e3⟩ | ⟨⟨m, e⟩, hb⟩)
      · simp only at e1 e2 e3
        subst e1 e2 e3
        rcases r with op | _ | _
        · exact follows_lost (smooth_act smooth_end op s2 b2).1
        · exact .inl ⟨rfl, rfl, rfl⟩
        · exact .inl ⟨rfl, rfl, rfl⟩
      · simp only at e hb
        subst e
        refine .inr ⟨?_, ?_⟩
        · simp only [literalRest, act, Step.run]
          rcases (b2.put [10] "writing final newline").bind (setComma false) with ⟨b4, _ | m4⟩ <;> exact ⟨_, rfl⟩
        · have hg := List.IsPrefix.trans hb (literalRest_adds ((s3, b3), r'))
          have hx : (literalRest ((s2, b2), .op (.error m))).1.2 = ((b2.put [10] "writing final newline").bind (setComma false)).1 := by
            simp only [literalRest, act, Step.run]
            rcases (b2.put [10] "writing final newline").bind (setComma false) with ⟨b4, _ | m4⟩ <;> rfl
          rw [hx]
          rcases newline_lost b2 with h | h
          · exact .inl (by rw [h]; exact hg)
          · exact .inr ⟨_, hg, h⟩
    · cases h
  · rintro (h | ⟨_, h⟩) ha
    · rw [h]
      exact ⟨.inl ⟨rfl, rfl, rfl⟩, ha⟩
    · refine ⟨.inr ⟨⟨m, rfl⟩, .inl ?_⟩, ha⟩
      revert h
      rcases (b.perfect.put [123] "writing root literal opening brace").bind inc with ⟨b2, _ | m⟩
      · exact fun h => List.IsPrefix.trans h ((smooth_onAtom F s b2).2.trans (literalRest_adds _))
      · exact id

theorem find_smooth (F : Nat) (p : Pseudo) (c : Ctx) (b : ToDdb) :
    find F p c b.perfect = ((find F p c b).1.perfect, (find F p c b).2) ∧ (find F p c b).1.d = b.d ∧
    ∀ a, (find F p c b).2 = some a → ∀ s b, Follows Rel Lost (a s b) (a s b.perfect) ∧ b.d.w.out <+: (a s b).1.2.d.w.out := by
  have lift : ∀ {a : Action ToDdb}, SmoothAct a → ∀ s b, Follows Rel Lost (a s b) (a s b.perfect) ∧ b.d.w.out <+: (a s b).1.2.d.w.out :=
    fun h s b => ⟨follows_lost (h s b).1, (h s b).2⟩
  unfold find
  rcases c.path with _ | ⟨parent, r⟩
  · cases p with
    | atom => exact ⟨rfl, rfl, fun a e => by injection e with e; subst e; exact lift (smooth_onAtom F)⟩
    | array => exact ⟨rfl, rfl, fun a e => by injection e with e; subst e; exact lift (smooth_act smooth_arrayBegin _)⟩
    | object => exact ⟨rfl, rfl, nofun⟩
    | none => exact ⟨rfl, rfl, nofun⟩
  · simp only
    by_cases ht : parent = nameTop
    · simp only [ht, if_true]
      cases p with
      | atom => exact ⟨rfl, rfl, fun a e => by injection e with e; subst e; exact follows_onRootLiteral F⟩
      | array => exact ⟨rfl, rfl, fun a e => by injection e with e; subst e; exact lift (smooth_act smooth_rootArray _)⟩
      | object => exact ⟨rfl, rfl, fun a e => by injection e with e; subst e; exact lift (smooth_act smooth_rootObjectBegin _)⟩
      | none => exact ⟨rfl, rfl, nofun⟩
    · simp only [if_neg ht]
      cases p with
      | none => exact ⟨rfl, rfl, fun a e => by injection e with e; subst e; exact lift (smooth_act smooth_fieldKey _)⟩
      | atom =>
        refine ⟨rfl, rfl, fun a e => ?_⟩
        injection e with e
        subst e
        split
        · exact lift (smooth_run smooth_elementBegin (smooth_onAtom F))
        · exact lift (smooth_onAtom F)
      | array =>
        refine ⟨rfl, rfl, fun a e => ?_⟩
        injection e with e
        subst e
        split
        · exact lift (smooth_act (smooth_elementBegin.bind smooth_arrayBegin) _)
        · exact lift (smooth_act smooth_arrayBegin _)
      | object =>
        refine ⟨rfl, rfl, fun a e => ?_⟩
        injection e with e
        subst e
        split
        · exact lift (smooth_act (smooth_elementBegin.bind smooth_objectBegin) _)
        · exact lift (smooth_act smooth_objectBegin _)

theorem findEnd_smooth (p : Pseudo) (c : Ctx) (b : ToDdb) :
    findEnd p c b.perfect = (b.perfect, (findEnd p c b).2) ∧ (findEnd p c b).1 = b ∧ ∀ a, (findEnd p c b).2 = some a → Smooth a := by
  unfold findEnd
  rcases c.path with _ | ⟨parent, above⟩
  · exact ⟨rfl, rfl, nofun⟩
  · simp only
    by_cases ht : parent = nameTop
    · simp only [ht, if_true]
      cases p with
      | object => exact ⟨rfl, rfl, fun a e => by injection e with e; subst e; exact smooth_rootObjectEnd⟩
      | array => exact ⟨rfl, rfl, fun a e => by injection e with e; subst e; exact smooth_rootArrayEnd⟩
      | atom => exact ⟨rfl, rfl, nofun⟩
      | none => exact ⟨rfl, rfl, nofun⟩
    · simp only [if_neg ht]
      cases p with
      | object => exact ⟨rfl, rfl, fun a e => by injection e with e; subst e; exact smooth_objectEnd⟩
      | array => exact ⟨rfl, rfl, fun a e => by injection e with e; subst e; exact smooth_arrayEnd⟩
      | atom =>
        refine ⟨rfl, rfl, fun a e => ?_⟩
        simp only at e
        split at e
        · injection e with e; subst e; exact smooth_skip
        · cases e
      | none => exact ⟨rfl, rfl, nofun⟩

theorem lost_stays (F : Nat) (b : ToDdb) : Stays (callbacks F) (Lost b) := by
  have mono : ∀ {g g' : ToDdb}, Lost b g → g.d.w.out <+: g'.d.w.out → Lost b g' := by
    rintro g g' (h | ⟨p, h, e⟩) h'
    · exact .inl (h.trans h')
    · exact .inr ⟨p, h.trans h', e⟩
  constructor
  · intro p c g h
    obtain ⟨_, h1, h2⟩ := find_smooth F p c g
    have h0 : Lost b (find F p c g).1 := mono h (by rw [h1]; exact List.prefix_rfl)
    refine ⟨h0, fun a e s => ?_⟩
    have h3 := mono h0 (h2 a e s (find F p c g).1).2
    revert h3
    simp only [show (callbacks F).find p c g = find F p c g from rfl]
    rcases a s (find F p c g).1 with ⟨⟨s, b'⟩, (_ | _ | m) | _ | _⟩ <;> exact id
  · intro p c g h
    obtain ⟨_, h1, h2⟩ := findEnd_smooth p c g
    have h0 : Lost b (findEnd p c g).1 := by rw [h1]; exact h
    refine ⟨h0, fun a e => ?_⟩
    have h3 := mono h0 (h2 a e (findEnd p c g).1).2
    revert h3
    simp only [show (callbacks F).findEnd p c g = findEnd p c g from rfl]
    rcases a (findEnd p c g).1 with ⟨b', _ | m⟩
    · exact id
    · exact fun h _ => h

theorem until_perfect (F : Nat) : Until (callbacks F) (callbacks F) Rel Lost := by
  constructor
  · rintro p c b _ rfl
    obtain ⟨h0, _, h2⟩ := find_smooth F p c b
    simp only [show ∀ g, (callbacks F).find p c g = find F p c g from fun _ => rfl]
    rw [h0]
    refine ⟨rfl, ?_⟩
    revert h2
    rcases find F p c b with ⟨b1, _ | a⟩
    · exact fun _ => trivial
    · exact fun h2 s => (h2 a rfl s b1).1
  · rintro p c b _ rfl
    obtain ⟨h0, h1, h2⟩ := findEnd_smooth p c b
    simp only [show ∀ g, (callbacks F).findEnd p c g = findEnd p c g from fun _ => rfl]
    rw [h0, h1]
    refine ⟨rfl, ?_⟩
    revert h2
    rcases (findEnd p c b).2 with _ | a
    · exact fun _ => trivial
    · intro h2
      rcases (h2 a rfl b).1 with h | h
      · simp only
        rw [h]
        exact .inl ⟨rfl, rfl⟩
      · exact .inr ⟨h.1, .inl h.2⟩
  · exact lost_stays F

end ToDdb

theorem report_err (l : Option ConvErr) (i : Nat) (e : Scan.SErr) : ∃ e' p, report l i e = .err e' p := by
  rcases l with _ | l
  · exact ⟨_, _, rfl⟩
  · exact ⟨_, _, rfl⟩

/-- Property C74 for `convert_normal_to_ddb`. If it does not return an error, then the bytes that the writer has received are those that a
writer that never fails receives from the same input, and all else is the same too; `unbuffered` makes no difference. If it returns an
error, they are the first of them, *possibly followed by a newline*. The full statement has no newline; it is false, see
`C74_newline`. -/
theorem C74_to_ddb_partial (turns F : Nat) (reader : Reader) (d : Dest) (rb cb : Bytes) (pretty unbuffered item : Bool) :
    ((∀ e p, (convertNormalToDdb turns F reader d rb cb pretty unbuffered item).2 ≠ .err e p) →
      convertNormalToDdb turns F reader d.perfect rb cb pretty false item =
        ((convertNormalToDdb turns F reader d rb cb pretty unbuffered item).1.perfect,
          (convertNormalToDdb turns F reader d rb cb pretty unbuffered item).2)) ∧
    ((convertNormalToDdb turns F reader d rb cb pretty unbuffered item).1.d.w.out <+:
        (convertNormalToDdb turns F reader d.perfect rb cb pretty false item).1.d.w.out ∨
      ∃ p, p <+: (convertNormalToDdb turns F reader d.perfect rb cb pretty false item).1.d.w.out ∧
        (convertNormalToDdb turns F reader d rb cb pretty unbuffered item).1.d.w.out = p ++ [10]) := by
  unfold convertNormalToDdb
  rcases U8Pool.new cb 34 with pool | e | _
  · simp only
    rcases scan_led (ToDdb.until_perfect F) turns F ⟨[], false⟩ (.new reader rb) (.new d item pretty unbuffered) (.new d.perfect item pretty false) pool rfl with
      ⟨g, h, hg⟩ | ⟨h', h⟩
    · rw [h, show g = _ from hg]
      rcases scan turns F (ToDdb.callbacks F) ⟨[], false⟩ ⟨.new reader rb, .new d item pretty unbuffered, pool⟩ with ⟨st, _ | e | _ | _⟩
      · exact ⟨fun _ => rfl, .inl List.prefix_rfl⟩
      · obtain ⟨_, _, h⟩ := report_err st.baton.lastError st.rj.currentIndex e
        exact ⟨fun h' => absurd h (h' _ _), .inl List.prefix_rfl⟩
      · exact ⟨fun _ => rfl, .inl List.prefix_rfl⟩
      · exact ⟨fun _ => rfl, .inl List.prefix_rfl⟩
    · revert h h'
      rcases scan turns F (ToDdb.callbacks F) ⟨[], false⟩ ⟨.new reader rb, .new d item pretty unbuffered, pool⟩ with ⟨st, _ | e | _ | _⟩
      · exact nofun
      · intro _ h
        obtain ⟨_, _, h1⟩ := report_err st.baton.lastError st.rj.currentIndex e
        refine ⟨fun h' => absurd h1 (h' _ _), ?_⟩
        · revert h
          rcases scan turns F (ToDdb.callbacks F) ⟨[], false⟩ ⟨.new reader rb, .new d.perfect item pretty false, pool⟩ with ⟨st, _ | e | _ | _⟩ <;> exact id
      · exact nofun
      · exact nofun
  · exact ⟨fun h => absurd rfl (h _ _), .inl List.prefix_rfl⟩
  · exact ⟨fun _ => rfl, .inl List.prefix_rfl⟩

/-- The input `{"a":true}`, and a writer whose third write fails behind its first byte. -/
example :
    (convertNormalToDdb 40 100 [.data 123 "\"a\":true}".toUTF8.toList] ⟨⟨[], [none, none, some ⟨7, 1⟩]⟩, []⟩ (List.replicate 32 0)
      (List.replicate 700 0) false true false).1.d.w.out = "{\"a".toUTF8.toList ∧
    (convertNormalToDdb 40 100 [.data 123 "\"a\":true}".toUTF8.toList] ⟨⟨[], [none, none, some ⟨7, 1⟩]⟩, []⟩ (List.replicate 32 0)
      (List.replicate 700 0) false true false).2 = .err (.io 7 "writing field name") 5 ∧
    (convertNormalToDdb 40 100 [.data 123 "\"a\":true}".toUTF8.toList] (Dest.perfect ⟨⟨[], [none, none, some ⟨7, 1⟩]⟩, []⟩)
      (List.replicate 32 0) (List.replicate 700 0) false false false).1.d.w.out = "{\"a\":{\"BOOL\":true}}\n".toUTF8.toList := by
  decide +kernel

/-- The same input, and a writer that is flushed behind each write and does not fail. -/
example : (convertNormalToDdb 40 100 [.data 123 "\"a\":true}".toUTF8.toList] ⟨⟨[], [none, none]⟩, [none]⟩ (List.replicate 32 0)
      (List.replicate 700 0) false true false).2 = .ok := by decide +kernel

/-- Negation of the full statement of C74 for `convert_normal_to_ddb`, without the newline. The input `"x"`: the write of `x` fails,
`on_root_literal` then writes the final newline, which the writer accepts; the output is no beginning of `{"S":"x"}` and a newline. -/
theorem C74_newline :
    ¬ (convertNormalToDdb 20 20 [.data 34 [120, 34]] ⟨⟨[], [none, none, some ⟨7, 0⟩]⟩, []⟩ (List.replicate 16 0)
        (List.replicate 600 0) false false false).1.d.w.out <+:
      (convertNormalToDdb 20 20 [.data 34 [120, 34]] (Dest.perfect ⟨⟨[], [none, none, some ⟨7, 0⟩]⟩, []⟩) (List.replicate 16 0)
        (List.replicate 600 0) false false false).1.d.w.out := by decide +kernel

namespace ToNormal

/-- The same state with the perfect writer, which is not flushed. -/
def perfect (b : ToNormal) : ToNormal := { b with d := b.d.perfect, unbuffered := false }

/-- A step with a writer, and the same step with the perfect one. -/
def LedStep (x y : Step) : Prop := y = (x.1.perfect, x.2) ∨ ((∃ m, x.2 = some m) ∧ x.1.d.w.out <+: y.1.d.w.out)

/-- A step that depends on the writer only as far as it fails, and only adds to the output. -/
def Smooth (k : ToNormal → Step) : Prop := ∀ b, LedStep (k b) (k b.perfect) ∧ b.d.w.out <+: (k b).1.d.w.out

theorem Smooth.bind {j k : ToNormal → Step} (hj : Smooth j) (hk : Smooth k) : Smooth fun b => (j b).bind k := by
  intro b
  obtain ⟨h, ha⟩ := hj b
  show LedStep ((j b).bind k) ((j b.perfect).bind k) ∧ b.d.w.out <+: ((j b).bind k).1.d.w.out
  revert h ha
  rcases j b with ⟨b1, _ | m⟩
  · rintro (h | ⟨⟨_, h⟩, _⟩) ha
    · rw [h]
      exact ⟨(hk b1).1, List.IsPrefix.trans ha (hk b1).2⟩
    · cases h
  · rintro (h | ⟨_, h⟩) ha
    · rw [h]
      exact ⟨.inl rfl, ha⟩
    · refine ⟨.inr ⟨⟨m, rfl⟩, ?_⟩, ha⟩
      revert h
      rcases j b.perfect with ⟨b2, _ | m⟩
      · exact fun h => List.IsPrefix.trans h (hk b2).2
      · exact id

theorem smooth_put (bs : Bytes) (c : String) : Smooth (put bs c) := by
  intro b
  unfold put
  have ha := write_adds b.d b.unbuffered bs
  rcases write_led b.d b.unbuffered bs with ⟨d, h, h'⟩ | ⟨d, k, h, d', h', hp⟩
  · rw [show b.perfect.d = b.d.perfect from rfl, show b.perfect.unbuffered = false from rfl, h']
    rw [h] at ha ⊢
    exact ⟨.inl rfl, ha⟩
  · rw [show b.perfect.d = b.d.perfect from rfl, show b.perfect.unbuffered = false from rfl, h']
    rw [h] at ha ⊢
    exact ⟨.inr ⟨⟨_, rfl⟩, hp⟩, ha⟩

theorem smooth_set {f : ToNormal → ToNormal} (h : ∀ b, f b.perfect = (f b).perfect) (hd : ∀ b, (f b).d = b.d) : Smooth fun b => (f b, none) :=
  fun b => ⟨.inl (by simp only [h]), by show b.d.w.out <+: (f b).d.w.out; rw [hd]; exact List.prefix_rfl⟩

theorem smooth_if {c : ToNormal → Bool} (hc : ∀ b, c b.perfect = c b) {j k : ToNormal → Step} (hj : Smooth j) (hk : Smooth k) :
    Smooth fun b => if c b then j b else k b := by
  intro b
  simp only [hc]
  cases c b
  · exact hk b
  · exact hj b

theorem smooth_skip : Smooth fun b => (b, none) := smooth_set (f := id) (fun _ => rfl) fun _ => rfl

theorem smooth_newline : Smooth newline := smooth_if (c := pretty) (fun _ => rfl) (smooth_put _ _) smooth_skip

theorem smooth_writeComma : Smooth writeComma :=
  smooth_if (c := comma) (fun _ => rfl) ((smooth_put _ _).bind (smooth_newline.bind (smooth_set (fun _ => rfl) fun _ => rfl))) smooth_skip

theorem smooth_indentLoop : ∀ n, Smooth (indentLoop n)
  | 0 => smooth_skip
  | n + 1 => (smooth_put _ _).bind (smooth_indentLoop n)

theorem smooth_indent : Smooth indent := by
  intro b
  unfold indent
  rw [show b.perfect.pretty = b.pretty from rfl, show b.perfect.depth = b.depth from rfl]
  cases b.pretty
  · exact smooth_skip b
  · exact smooth_indentLoop b.depth b

theorem smooth_dec : Smooth dec := by
  intro b
  unfold dec
  rw [show b.perfect.depth = b.depth from rfl]
  split
  · exact ⟨.inl rfl, List.prefix_rfl⟩
  · exact ⟨.inl rfl, List.prefix_rfl⟩

theorem smooth_flushLong : Smooth flushLong := by
  intro b
  unfold flushLong
  rw [show b.perfect.unbuffered = false from rfl]
  cases hu : b.unbuffered
  · exact ⟨.inl (by rfl), List.prefix_rfl⟩
  · simp only [if_true]
    have hw := flush_w b.d
    revert hw
    rcases b.d.flush with ⟨d, _ | k⟩
    · intro hw
      simp only at hw
      refine ⟨.inl ?_, by show b.d.w.out <+: d.w.out; rw [hw]; exact List.prefix_rfl⟩
      simp only [perfect, Dest.perfect, hw]
      rfl
    · intro hw
      simp only at hw
      refine ⟨.inr ⟨⟨_, rfl⟩, ?_⟩, by show b.d.w.out <+: d.w.out; rw [hw]; exact List.prefix_rfl⟩
      show d.w.out <+: b.d.w.out
      rw [hw]
      exact List.prefix_rfl

/-- The states are the same, apart from the writer. -/
def Rel (b g : ToNormal) : Prop := g = b.perfect
/-- When a write has failed. -/
def Behind (b g : ToNormal) : Prop := b.d.w.out <+: g.d.w.out

/-- An action that depends on the writer only as far as it fails, and only adds to the output. -/
def SmoothAct (a : Action ToNormal) : Prop := ∀ s b, Follows Rel Behind (a s b) (a s b.perfect) ∧ b.d.w.out <+: (a s b).1.2.d.w.out

theorem smooth_answer (r : Acted) : SmoothAct fun s b => ((s, b), r) := fun _ _ => ⟨.inl ⟨rfl, rfl, rfl⟩, List.prefix_rfl⟩

theorem smooth_run {j : ToNormal → Step} {k : Action ToNormal} (hj : Smooth j) (hk : SmoothAct k) : SmoothAct fun s b => (j b).run s k := by
  intro s b
  obtain ⟨h, ha⟩ := hj b
  show Follows Rel Behind ((j b).run s k) ((j b.perfect).run s k) ∧ b.d.w.out <+: ((j b).run s k).1.2.d.w.out
  revert h ha
  rcases j b with ⟨b1, _ | m⟩
  · rintro (h | ⟨⟨_, h⟩, _⟩) ha
    · rw [h]
      exact ⟨(hk s b1).1, List.IsPrefix.trans ha (hk s b1).2⟩
    · cases h
  · rintro (h | ⟨_, h⟩) ha
    · rw [h]
      exact ⟨.inl ⟨rfl, rfl, rfl⟩, ha⟩
    · refine ⟨.inr ⟨⟨m, rfl⟩, ?_⟩, ha⟩
      revert h
      rcases j b.perfect with ⟨b2, _ | m⟩
      · exact fun h => List.IsPrefix.trans h (hk s b2).2
      · exact id

theorem smooth_act {j : ToNormal → Step} (hj : Smooth j) (op : Scan.StreamOp) : SmoothAct (act j op) := smooth_run hj (smooth_answer _)

/-- `write_long_bytes` and the rest of an action. -/
theorem smooth_long {F : Nat} {k : Action ToNormal} {f : Err → ToNormal → ToNormal} {m : String} (hk : SmoothAct k)
    (hf : ∀ e b, f e b.perfect = (f e b).perfect) (hd : ∀ e b, (f e b).d = b.d) :
    SmoothAct fun rj b =>
      match rj.writeLongBytes F b.d.w with
      | ((rj, w), .ok ()) => k rj { b with d := { b.d with w := w } }
      | ((rj, w), .err e) => ((rj, f e { b with d := { b.d with w := w } }), .op (.error m))
      | ((rj, w), .panic) => ((rj, { b with d := { b.d with w := w } }), .panic)
      | ((rj, w), .diverge) => ((rj, { b with d := { b.d with w := w } }), .diverge) := by
  intro rj b
  simp only
  rw [show b.perfect.d.w = b.d.w.perfect from rfl]
  have hl := handleLong_led .raw F rj b.d.w
  have ha := (handleLong_wrote .raw F rj b.d.w).prefix
  rw [show RJ.handleLong .raw F rj b.d.w = rj.writeLongBytes F b.d.w from rfl] at hl ha
  rw [show RJ.handleLong .raw F rj b.d.w.perfect = rj.writeLongBytes F b.d.w.perfect from rfl] at hl
  rcases hl with hl | ⟨he, hl⟩
  · rw [hl]
    revert ha
    rcases rj.writeLongBytes F b.d.w with ⟨⟨rj2, w2⟩, _ | e | _ | _⟩
    · intro ha
      have h := hk rj2 { b with d := { b.d with w := w2 } }
      exact ⟨h.1, List.IsPrefix.trans ha h.2⟩
    · intro ha
      have h := hf e { b with d := { b.d with w := w2 } }
      exact ⟨.inl ⟨rfl, rfl, h⟩, by simp only [hd]; exact ha⟩
    · exact fun ha => ⟨.inl ⟨rfl, rfl, rfl⟩, ha⟩
    · exact fun ha => ⟨.inl ⟨rfl, rfl, rfl⟩, ha⟩
  · revert he hl ha
    rcases rj.writeLongBytes F b.d.w with ⟨⟨rj2, w2⟩, _ | e | _ | _⟩
    · exact nofun
    · intro ha _ hl
      refine ⟨.inr ⟨⟨_, rfl⟩, ?_⟩, by simp only [hd]; exact ha⟩
      show _ <+: _
      simp only [hd]
      revert hl
      rcases rj.writeLongBytes F b.d.w.perfect with ⟨⟨rj3, w3⟩, _ | e | _ | _⟩
      · intro hl
        exact List.IsPrefix.trans hl (hk rj3 { b.perfect with d := { b.perfect.d with w := w3 } }).2
      · simp only [hd]
        exact id
      · exact id
      · exact id
    · exact nofun
    · exact nofun

theorem smooth_stop (m : String) : Smooth fun b => (b, some m) := fun _ => ⟨.inl rfl, List.prefix_rfl⟩

theorem smooth_setf {f : ToNormal → ToNormal} (h : ∀ b, f b.perfect = (f b).perfect) (hd : ∀ b, (f b).d = b.d) : Smooth (set f) := smooth_set h hd

theorem smooth_quote (q : Bool) (c : String) : Smooth (quote q c) := by
  cases q
  · exact smooth_skip
  · exact smooth_put _ _

theorem smooth_rootObjectBegin : Smooth rootObjectBegin := (smooth_put _ _).bind (smooth_newline.bind (smooth_setf (by intro _; rfl) (by intro _; rfl)))

theorem smooth_fieldKey : Smooth fieldKey := by
  intro b
  unfold fieldKey
  rw [show b.perfect.field = b.field from rfl]
  rcases b.field with _ | name
  · exact ⟨.inl rfl, List.prefix_rfl⟩
  · exact (smooth_writeComma.bind (smooth_indent.bind ((smooth_put _ _).bind ((smooth_put name _).bind ((smooth_put _ _).bind
      (smooth_setf (by intro _; rfl) (by intro _; rfl))))))) b

theorem smooth_setBegin (t : TypeDesc) (c : String) : Smooth (setBegin t c) := (smooth_put _ _).bind (smooth_setf (by intro _; rfl) (by intro _; rfl))

theorem smooth_listBegin : Smooth listBegin := smooth_writeComma.bind ((smooth_put _ _).bind (smooth_setf (by intro _; rfl) (by intro _; rfl)))

theorem smooth_mapBegin : Smooth mapBegin :=
  smooth_writeComma.bind ((smooth_put _ _).bind (smooth_newline.bind (smooth_setf (by intro _; rfl) (by intro _; rfl))))

theorem smooth_listEnd : Smooth listEnd := by
  intro b
  unfold listEnd
  rw [show b.perfect.phase = b.phase from rfl]
  by_cases h : b.phase ≠ .typeKey
  · rw [if_pos h, if_pos h]
    exact smooth_stop _ b
  · rw [if_neg h, if_neg h]
    exact ((smooth_put _ _).bind (smooth_setf (by intro _; rfl) (by intro _; rfl))) b

theorem smooth_setEnd : Smooth setEnd := (smooth_put _ _).bind (smooth_setf (by intro _; rfl) (by intro _; rfl))

theorem smooth_mapEnd : Smooth mapEnd :=
  smooth_newline.bind (smooth_dec.bind (smooth_indent.bind ((smooth_put _ _).bind (smooth_setf (by intro _; rfl) (by intro _; rfl)))))

theorem smooth_mapEndInArray : Smooth mapEndInArray := smooth_mapEnd.bind (smooth_setf (by intro _; rfl) (by intro _; rfl))

theorem smooth_goto (ph : Phase) : Smooth (goto ph) := smooth_setf (by intro _; rfl) (by intro _; rfl)

theorem smooth_rootObjectEnd : Smooth rootObjectEnd :=
  smooth_newline.bind ((smooth_put _ _).bind ((smooth_put _ _).bind (smooth_setf (by intro _; rfl) (by intro _; rfl))))

theorem smooth_writeString (F : Nat) (q : Bool) (c1 c2 : String) : SmoothAct (writeString F q c1 c2) := by
  intro s b
  unfold writeString
  rcases s.peek F with ⟨s2, c | e | _ | _⟩
  · simp only
    by_cases h1 : c ≠ 34
    · rw [if_pos h1, if_pos h1]
      exact smooth_answer _ s2 b
    · rw [if_neg h1, if_neg h1]
      exact smooth_run (smooth_writeComma.bind (smooth_quote q _))
        (smooth_long (f := fun e b => b.storeRj e c2) (smooth_act (smooth_flushLong.bind ((smooth_quote q _).bind
          (smooth_setf (by intro _; rfl) (by intro _; rfl)))) _) (fun _ _ => rfl) fun _ _ => rfl) s2 b
  · exact ⟨.inl ⟨rfl, rfl, rfl⟩, List.prefix_rfl⟩
  · exact smooth_answer _ s2 b
  · exact smooth_answer _ s2 b

theorem smooth_writeBool (F : Nat) (o : Byte → Bytes × Option String) (c : String) : SmoothAct (writeBool F o c) := by
  intro s b
  unfold writeBool
  rcases s.peek F with ⟨s2, pk | e | _ | _⟩
  · simp only
    rcases o pk with ⟨bytes, _ | m⟩
    · refine smooth_run smooth_writeComma ?_ s2 b
      intro s b
      simp only
      rcases s.knownBool F pk with ⟨s3, v | e | _ | _⟩
      · exact smooth_act ((smooth_put _ _).bind (smooth_setf (by intro _; rfl) (by intro _; rfl))) _ s3 b
      · exact ⟨.inl ⟨rfl, rfl, rfl⟩, List.prefix_rfl⟩
      · exact smooth_answer _ s3 b
      · exact smooth_answer _ s3 b
    · exact smooth_answer _ s2 b
  · exact ⟨.inl ⟨rfl, rfl, rfl⟩, List.prefix_rfl⟩
  · exact smooth_answer _ s2 b
  · exact smooth_answer _ s2 b

theorem smooth_settle {f : ToNormal → ToNormal} (h : ∀ b, f b.perfect = (f b).perfect) (hd : ∀ b, (f b).d = b.d) {a : Action ToNormal}
    (ha : SmoothAct a) : SmoothAct fun s b => settle f (a s b) := by
  intro s b
  obtain ⟨h1, h2⟩ := ha s b
  show Follows Rel Behind (settle f (a s b)) (settle f (a s b.perfect)) ∧ b.d.w.out <+: (settle f (a s b)).1.2.d.w.out
  have hs : ∀ x : (RJ × ToNormal) × Acted, (settle f x).1.2.d = x.1.2.d := by
    rintro ⟨⟨s, b⟩, op | _ | _⟩
    · exact hd b
    · rfl
    · rfl
  refine ⟨?_, by rw [hs]; exact h2⟩
  revert h1
  rcases a s b with ⟨⟨s1, b1⟩, r⟩
  rcases a s b.perfect with ⟨⟨s2, b2⟩, r'⟩
  rintro (⟨e1, e2, e3⟩ | ⟨⟨m, e⟩, h3⟩)
  · simp only at e1 e2
    subst e1 e2
    have e3 : b2 = b1.perfect := e3
    subst e3
    rcases r with op | _ | _
    · exact .inl ⟨rfl, rfl, h b1⟩
    · exact .inl ⟨rfl, rfl, rfl⟩
    · exact .inl ⟨rfl, rfl, rfl⟩
  · simp only at e
    subst e
    refine .inr ⟨⟨m, rfl⟩, ?_⟩
    show _ <+: _
    rw [hs, hs]
    exact h3

theorem smooth_onTypeKey (F : Nat) : SmoothAct (onTypeKey F) := by
  intro s b
  unfold onTypeKey
  rw [show b.perfect.field = b.field from rfl]
  rcases b.field with _ | key
  · exact smooth_answer _ s b
  · simp only
    by_cases h1 : key = [83] ∨ key = [66]
    · simp only [if_pos h1]; exact smooth_settle (by intro _; rfl) (by intro _; rfl) (smooth_writeString F _ _ _) s b
    · simp only [if_neg h1]
      by_cases h2 : key = [78]
      · simp only [if_pos h2]; exact smooth_settle (by intro _; rfl) (by intro _; rfl) (smooth_writeString F _ _ _) s b
      · simp only [if_neg h2]
        by_cases h3 : key = [66, 79, 79, 76]
        · simp only [if_pos h3]; exact smooth_settle (by intro _; rfl) (by intro _; rfl) (smooth_writeBool F _ _) s b
        · simp only [if_neg h3]
          by_cases h4 : key = [78, 85, 76, 76]
          · simp only [if_pos h4]; exact smooth_settle (by intro _; rfl) (by intro _; rfl) (smooth_writeBool F _ _) s b
          · simp only [if_neg h4]
            by_cases h5 : key = [83, 83] ∨ key = [66, 83]
            · simp only [if_pos h5]; exact smooth_act (smooth_setBegin _ _) _ s b
            · simp only [if_neg h5]
              by_cases h6 : key = [78, 83]
              · simp only [if_pos h6]; exact smooth_act (smooth_setBegin _ _) _ s b
              · simp only [if_neg h6]
                by_cases h7 : key = [76]
                · simp only [if_pos h7]; exact smooth_act smooth_listBegin _ s b
                · simp only [if_neg h7]
                  by_cases h8 : key = [77]
                  · simp only [if_pos h8]; exact smooth_act smooth_mapBegin _ s b
                  · simp only [if_neg h8]; exact ⟨.inl ⟨rfl, rfl, rfl⟩, List.prefix_rfl⟩

/-- What a matcher returns, for a writer and the perfect one. -/
def FoundAlike (b : ToNormal) (x y : ToNormal × Option (Action ToNormal)) : Prop :=
  y = (x.1.perfect, x.2) ∧ x.1.d = b.d ∧ ∀ a, x.2 = some a → SmoothAct a

theorem alike_reject (c : String) (b : ToNormal) : FoundAlike b (reject c b) (reject c b.perfect) :=
  ⟨rfl, rfl, fun a e => by injection e with e; subst e; exact smooth_answer _⟩

theorem alike_none (b : ToNormal) : FoundAlike b (b, none) (b.perfect, none) := ⟨rfl, rfl, nofun⟩

theorem alike_some {a : Action ToNormal} (ha : SmoothAct a) (b : ToNormal) : FoundAlike b (b, some a) (b.perfect, some a) :=
  ⟨rfl, rfl, fun a' e => by injection e with e; subst e; exact ha⟩

theorem find_alike (F : Nat) (p : Pseudo) (c : Ctx) (b : ToNormal) : FoundAlike b (find F p c b) (find F p c b.perfect) := by
  unfold find
  have hp : b.perfect.phase = b.phase := rfl
  have ht : b.perfect.type = b.type := rfl
  cases p with
  | object =>
    simp only [findObject, hp, ht, show b.perfect.depth = b.depth from rfl]
    by_cases h1 : b.depth = 0
    · simp only [if_pos h1]; exact alike_some (smooth_act smooth_rootObjectBegin _) b
    · simp only [if_neg h1]
      cases b.phase with
      | value => exact alike_reject _ b
      | typeKey =>
        simp only
        by_cases h2 : b.type = some .l
        · simp only [if_pos h2]; exact alike_reject _ b
        · simp only [if_neg h2]; exact alike_none b
      | field => exact alike_none b
      | consumed =>
        simp only
        by_cases h2 : c.path.head? = some nameArray
        · simp only [if_pos h2]; exact alike_none b
        · simp only [if_neg h2]; exact alike_reject _ b
  | none =>
    have keyed : ∀ (b : ToNormal) (k : Bytes) (a : Action ToNormal), SmoothAct a →
        FoundAlike b ({ b with field := some k }, some a) ({ b.perfect with field := some k }, some a) :=
      fun b k a ha => ⟨rfl, rfl, fun a' e => by injection e with e; subst e; exact ha⟩
    simp only [findKey]
    rcases c.path with _ | ⟨key, above⟩
    · exact alike_none b
    · obtain ⟨d, comma, pretty, unb, depth, field, asW, le, phase, type, uf⟩ := b
      simp only [perfect]
      cases phase with
      | field =>
        simp only
        by_cases h2 : key = nameItem ∧ asW = true ∧ above.head? = some nameTop
        · rw [if_pos h2]; erw [if_pos h2]; exact alike_none ⟨d, comma, pretty, unb, depth, field, asW, le, .field, type, uf⟩
        · rw [if_neg h2]; erw [if_neg h2]; exact keyed ⟨d, comma, pretty, unb, depth, field, asW, le, .field, type, uf⟩ key _ (smooth_act smooth_fieldKey _)
      | typeKey => exact keyed ⟨d, comma, pretty, unb, depth, field, asW, le, .typeKey, type, uf⟩ key _ (smooth_onTypeKey F)
      | value =>
        simp only
        by_cases h2 : type = some .ss ∨ type = some .ns
        · rw [if_pos h2]; erw [if_pos h2]; exact keyed ⟨d, comma, pretty, unb, depth, field, asW, le, .value, type, uf⟩ key _ (smooth_onTypeKey F)
        · rw [if_neg h2]; erw [if_neg h2]; exact alike_reject _ ⟨d, comma, pretty, unb, depth, field, asW, le, .value, type, uf⟩
      | consumed => exact keyed ⟨d, comma, pretty, unb, depth, field, asW, le, .consumed, type, uf⟩ key _ (smooth_act smooth_fieldKey _)
  | array =>
    obtain ⟨d, comma, pretty, unb, depth, field, asW, le, phase, type, uf⟩ := b
    simp only [findArray, perfect]
    rcases type with _ | (_ | _ | _ | _)
    all_goals first | exact alike_reject _ (ToNormal.mk d comma pretty unb depth field asW le phase _ uf) | exact ⟨rfl, rfl, nofun⟩
  | atom =>
    simp only [findAtom, hp, ht]
    by_cases h1 : b.phase ≠ .value
    · simp only [if_pos h1]; exact alike_reject _ b
    · simp only [if_neg h1]
      by_cases h2 : (b.type = some .ss ∨ b.type = some .ns) ∧ c.path.head? = some nameArray
      · simp only [if_pos h2]
        by_cases h3 : b.type = some .ss
        · simp only [if_pos h3]; exact alike_some (smooth_writeString F _ _ _) b
        · simp only [if_neg h3]; exact alike_some (smooth_writeString F _ _ _) b
      · simp only [if_neg h2]; exact alike_reject _ b

theorem findEnd_smooth (p : Pseudo) (c : Ctx) (b : ToNormal) :
    findEnd p c b.perfect = (b.perfect, (findEnd p c b).2) ∧ (findEnd p c b).1 = b ∧ ∀ a, (findEnd p c b).2 = some a → Smooth a := by
  refine ⟨?_, ?_, fun a e => ?_⟩
  · unfold findEnd findEndKey
    rcases p with _ | _ | _ | _ <;> rfl
  · unfold findEnd
    rcases p with _ | _ | _ | _ <;> rfl
  · unfold findEnd at e
    cases p with
    | array =>
      simp only at e
      split at e
      · injection e with e; subst e; exact smooth_listEnd
      · split at e
        · injection e with e; subst e; exact smooth_setEnd
        · cases e
    | object =>
      simp only at e
      split at e
      · injection e with e; subst e; exact smooth_rootObjectEnd
      · cases e
    | none =>
      simp only [findEndKey] at e
      split at e
      · cases e
      · split at e
        · injection e with e; subst e; exact smooth_goto _
        · injection e with e; subst e; exact smooth_goto _
        · split at e
          · cases e
          · injection e with e
            subst e
            split
            · exact smooth_mapEndInArray
            · exact smooth_mapEnd
        · split at e
          · cases e
          · injection e with e; subst e; exact smooth_goto _
    | atom => cases e

theorem behind_stays (F : Nat) (b : ToNormal) : Stays (callbacks F) (Behind b) := by
  constructor
  · intro p c g h
    obtain ⟨_, h1, h2⟩ := find_alike F p c g
    have h0 : Behind b (find F p c g).1 := by unfold Behind; rw [h1]; exact h
    refine ⟨h0, fun a e s => ?_⟩
    have h3 := List.IsPrefix.trans h0 (h2 a e s (find F p c g).1).2
    revert h3
    simp only [show (callbacks F).find p c g = find F p c g from rfl]
    rcases a s (find F p c g).1 with ⟨⟨s, b'⟩, (_ | _ | m) | _ | _⟩ <;> exact id
  · intro p c g h
    obtain ⟨_, h1, h2⟩ := findEnd_smooth p c g
    have h0 : Behind b (findEnd p c g).1 := by rw [h1]; exact h
    refine ⟨h0, fun a e => ?_⟩
    have h3 := List.IsPrefix.trans h0 (h2 a e (findEnd p c g).1).2
    revert h3
    simp only [show (callbacks F).findEnd p c g = findEnd p c g from rfl]
    rcases a (findEnd p c g).1 with ⟨b', _ | m⟩
    · exact id
    · exact fun h _ => h

theorem until_perfect (F : Nat) : Until (callbacks F) (callbacks F) Rel Behind := by
  constructor
  · rintro p c b _ rfl
    obtain ⟨h0, _, h2⟩ := find_alike F p c b
    simp only [show ∀ g, (callbacks F).find p c g = find F p c g from fun _ => rfl]
    rw [h0]
    refine ⟨rfl, ?_⟩
    revert h2
    rcases find F p c b with ⟨b1, _ | a⟩
    · exact fun _ => trivial
    · exact fun h2 s => (h2 a rfl s b1).1
  · rintro p c b _ rfl
    obtain ⟨h0, h1, h2⟩ := findEnd_smooth p c b
    simp only [show ∀ g, (callbacks F).findEnd p c g = findEnd p c g from fun _ => rfl]
    rw [h0, h1]
    refine ⟨rfl, ?_⟩
    revert h2
    rcases (findEnd p c b).2 with _ | a
    · exact fun _ => trivial
    · intro h2
      rcases (h2 a rfl b).1 with h | h
      · simp only
        rw [h]
        exact .inl ⟨rfl, rfl⟩
      · exact .inr h
  · exact behind_stays F

end ToNormal

/-- Property C74 for `convert_ddb_to_normal`. If it does not return an error, then the bytes that the writer has received are those that a
writer that never fails receives from the same input, and all else is the same too; `unbuffered` makes no difference. And whatever it
returns, they are the first of them. -/
theorem C74_to_normal (turns F : Nat) (reader : Reader) (d : Dest) (rb cb : Bytes) (pretty unbuffered asWrapper : Bool) :
    ((∀ e p, (convertDdbToNormal turns F reader d rb cb pretty unbuffered asWrapper).2 ≠ .err e p) →
      convertDdbToNormal turns F reader d.perfect rb cb pretty false asWrapper =
        ((convertDdbToNormal turns F reader d rb cb pretty unbuffered asWrapper).1.perfect,
          (convertDdbToNormal turns F reader d rb cb pretty unbuffered asWrapper).2)) ∧
    (convertDdbToNormal turns F reader d rb cb pretty unbuffered asWrapper).1.d.w.out <+:
      (convertDdbToNormal turns F reader d.perfect rb cb pretty false asWrapper).1.d.w.out := by
  unfold convertDdbToNormal
  rcases U8Pool.new cb 68 with pool | e | _
  · simp only
    rcases scan_led (ToNormal.until_perfect F) turns F ⟨[], false⟩ (.new reader rb) (.new d pretty unbuffered asWrapper)
      (.new d.perfect pretty false asWrapper) pool rfl with ⟨g, h, hg⟩ | ⟨h', h⟩
    · rw [h, show g = _ from hg]
      rcases scan turns F (ToNormal.callbacks F) ⟨[], false⟩ ⟨.new reader rb, .new d pretty unbuffered asWrapper, pool⟩ with ⟨st, _ | e | _ | _⟩
      · exact ⟨fun _ => rfl, List.prefix_rfl⟩
      · obtain ⟨_, _, h⟩ := report_err st.baton.lastError st.rj.currentIndex e
        exact ⟨fun h' => absurd h (h' _ _), List.prefix_rfl⟩
      · exact ⟨fun _ => rfl, List.prefix_rfl⟩
      · exact ⟨fun _ => rfl, List.prefix_rfl⟩
    · revert h h'
      rcases scan turns F (ToNormal.callbacks F) ⟨[], false⟩ ⟨.new reader rb, .new d pretty unbuffered asWrapper, pool⟩ with ⟨st, _ | e | _ | _⟩
      · exact nofun
      · intro _ h
        obtain ⟨_, _, h1⟩ := report_err st.baton.lastError st.rj.currentIndex e
        refine ⟨fun h' => absurd h1 (h' _ _), ?_⟩
        · revert h
          rcases scan turns F (ToNormal.callbacks F) ⟨[], false⟩ ⟨.new reader rb, .new d.perfect pretty false asWrapper, pool⟩ with ⟨st, _ | e | _ | _⟩ <;> exact id
      · exact nofun
      · exact nofun
  · exact ⟨fun h => absurd rfl (h _ _), List.prefix_rfl⟩
  · exact ⟨fun _ => rfl, List.prefix_rfl⟩

/-- The input `{"a":{"BOOL":true}}`, and a writer whose third write fails behind its first byte. -/
example :
    (convertDdbToNormal 40 100 [.data 123 "\"a\":{\"BOOL\":true}}".toUTF8.toList] ⟨⟨[], [none, none, some ⟨7, 1⟩]⟩, []⟩
      (List.replicate 32 0) (List.replicate 1500 0) false true false).1.d.w.out = "{\"a".toUTF8.toList ∧
    (convertDdbToNormal 40 100 [.data 123 "\"a\":{\"BOOL\":true}}".toUTF8.toList] ⟨⟨[], [none, none, some ⟨7, 1⟩]⟩, []⟩
      (List.replicate 32 0) (List.replicate 1500 0) false true false).2 = .err (.io 7 "writing field name") 5 ∧
    (convertDdbToNormal 40 100 [.data 123 "\"a\":{\"BOOL\":true}}".toUTF8.toList] (Dest.perfect ⟨⟨[], [none, none, some ⟨7, 1⟩]⟩, []⟩)
      (List.replicate 32 0) (List.replicate 1500 0) false false false).1.d.w.out = "{\"a\":true}\n".toUTF8.toList := by
  decide +kernel

/-- The same input, and a writer that is flushed behind each write and does not fail. -/
example : (convertDdbToNormal 40 100 [.data 123 "\"a\":{\"BOOL\":true}}".toUTF8.toList] ⟨⟨[], [none, none]⟩, [none]⟩
      (List.replicate 32 0) (List.replicate 1500 0) false true false).2 = .ok := by decide +kernel

end Verif.Ddb
