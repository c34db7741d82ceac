import Verif.Scan.LateIdt
import Verif.RJiter.LateWord
import Verif.Ddb.ToDdb

/-!
# `convert_normal_to_ddb` with a reader that fails where another one ends
-/

namespace Verif.Ddb

open Verif.RJiter
open Verif.RJiter.RJ (JSound)
open Verif.RJiter.Jiter (peek_ok PrefixFn knownBool_prefix knownNull_prefix)
open Verif.Scan (Action Acted StreamOp Patient BothAct Primed Ctx Pseudo waits_act waits_long nextNumber_waits)

namespace ToDdb

variable {k F : Nat}

theorem run_both (x : Step) {s : RJ} (hr : Primed F s) {g : Action ToDdb}
    (hg : ∀ b, BothAct k F Eq (g s b) (g (s.late k) b)) : BothAct k F Eq (x.run s g) (x.run (s.late k) g) := by
  rcases x with ⟨b, _ | m⟩
  · exact hg b
  · exact .still hr rfl rfl

theorem act_both (f : ToDdb → Step) (op : StreamOp) {s : RJ} (hr : Primed F s) (b : ToDdb) :
    BothAct k F Eq (act f op s b) (act f op (s.late k) b) :=
  run_both _ hr fun _ => .still hr rfl rfl

/-- `peek`, and the rest of an action. -/
theorem peek_both {s : RJ} (hr : Primed F s) {g : RJ × Res Byte → (RJ × ToDdb) × Acted}
    (hok : ∀ s' c t, Primed F s' → s'.jdata = c :: t → s'.peek F = (s', .ok c) →
      BothAct k F Eq (g (s', .ok c)) (g (s'.late k, .ok c)))
    (herr : ∀ s' e, ∃ b m, g (s', .err e) = ((s', b), .op (.error m)) ∧ g (s'.late k, .err e) = ((s'.late k, b), .op (.error m)))
    (hio : ∀ s' e t i, (g (s', .err e)).1.2 = (g (t, .err ⟨.io k, i⟩)).1.2) :
    BothAct k F Eq (g (s.peek F)) (g ((s.late k).peek F)) := by
  have hl : 2 ≤ s.b.buf.length := by have := hr.usable.len; omega
  have hw := RJ.peek_waits k F hr.usable.sync
  have hrun := RJ.peek_runs hr.usable.sync hl hr.usable.fuel
  rcases hx : s.peek F with ⟨s', c | e | _ | _⟩
  · rw [hx] at hw hrun
    obtain ⟨n, _, hm⟩ := hrun
    rcases hw with hw | ⟨_, h⟩
    · rw [hw]
      have hp := RJ.peek_again hx
      obtain ⟨j, n', h1, h2⟩ := RJ.loopUntilSuccess_readAt hx
      obtain ⟨ws, t, e, _, _, rfl⟩ := peek_ok h1
      refine hok s' c t (hr.moved hm) ?_ hp
      rw [RJ.jdata, h2, ← List.drop_drop, e, List.drop_left]
    · exact absurd rfl (h c)
  · rw [hx] at hw
    rcases hw with hw | ⟨⟨i, h⟩, _⟩
    · rw [hw]
      obtain ⟨b, m, h1, h2⟩ := herr s' e
      left
      simp only
      rw [h1, h2]
      exact ⟨rfl, fun h => by rcases h with h | h <;> cases h⟩
    · rcases hy : (s.late k).peek F with ⟨t, r⟩
      rw [hy] at h
      simp only at h
      subst h
      obtain ⟨b, m, h1, -⟩ := herr s' e
      obtain ⟨b', m', h3, -⟩ := herr t ⟨.io k, i⟩
      have := hio s' e t i
      rw [h1, h3] at this
      right; right
      rw [h1, h3]
      exact ⟨this, ⟨_, rfl⟩, _, rfl⟩
  · rw [hx] at hrun; exact hrun.elim
  · rw [hx] at hrun; exact hrun.elim

/-- A second `peek`. -/
theorem peek_twice {s : RJ} {c : Byte} (hr : Primed F s) (hp : s.peek F = (s, .ok c)) : (s.late k).peek F = (s.late k, .ok c) := by
  rcases RJ.peek_waits k F hr.usable.sync with h | ⟨_, h⟩
  · rw [h, hp]
  · rw [hp] at h
    exact absurd rfl (h c)

theorem ignoring_both {α : Type} {f : JFn α} (hf : JSound f none) (hw : Within f) {s : RJ} (hr : Primed F s) {c : Byte} {t : Bytes}
    (hj : s.jdata = c :: t) (hc : Buffer.isAsciiWs c = false) (hrun : s.Runs 1 (s.loopUntilSuccess F f none false)) (b : ToDdb)
    (g : ToDdb → Step) (op : StreamOp) :
    BothAct k F Eq (ignoring b (act g op) (s.loopUntilSuccess F f none false))
      (ignoring b (act g op) ((s.late k).loopUntilSuccess F f none false)) := by
  have hl : 2 ≤ s.b.buf.length := by have := hr.usable.len; omega
  have hF : 0 < F := by have := hr.usable.fuel; unfold enoughFuel at this; omega
  have hm := RJ.loopUntilSuccess_meet k f hr.usable.sync hj hc hF
  rcases hx : s.loopUntilSuccess F f none false with ⟨s', v | e | _ | _⟩
  · rw [hx] at hm hrun
    obtain ⟨n, _, hmv⟩ := hrun
    rcases hm with h | ⟨_, ⟨e, h⟩, _⟩
    · rw [h]
      exact act_both _ _ (hr.moved hmv) b
    · cases h
  · obtain ⟨n, hmv⟩ := RJ.loopUntilSuccess_here hf hw hr.usable.sync hj hc hl hr.usable.fuel hx
    rw [hx] at hm
    rcases hm with h | ⟨h1, -, e2, h2⟩
    · rw [h]
      exact act_both _ _ (hr.moved hmv) b
    · rcases hy : (s.late k).loopUntilSuccess F f none false with ⟨s2, r2⟩
      rw [hy] at h1 h2
      simp only at h1 h2
      subst h1 h2
      exact .inr (.inl rfl)
  · rw [hx] at hrun; exact hrun.elim
  · rw [hx] at hrun; exact hrun.elim

theorem knownBool_both {s : RJ} (hr : Primed F s) {c : Byte} {t : Bytes} (hj : s.jdata = c :: t) (hc : c = 116 ∨ c = 102) (b : ToDdb)
    (g : ToDdb → Step) (op : StreamOp) :
    BothAct k F Eq (ignoring b (act g op) (s.knownBool F c)) (ignoring b (act g op) ((s.late k).knownBool F c)) := by
  have hl : 2 ≤ s.b.buf.length := by have := hr.usable.len; omega
  exact ignoring_both (PrefixFn.jsound (knownBool_prefix c)) (RJ.still_within (knownBool_still c)) hr hj
    (by rcases hc with rfl | rfl <;> decide) (RJ.knownBool_runs c hr.usable.sync hl hr.usable.fuel) b g op

theorem knownNull_both {s : RJ} (hr : Primed F s) {t : Bytes} (hj : s.jdata = 110 :: t) (b : ToDdb) (g : ToDdb → Step) (op : StreamOp) :
    BothAct k F Eq (ignoring b (act g op) (s.knownNull F)) (ignoring b (act g op) ((s.late k).knownNull F)) := by
  have hl : 2 ≤ s.b.buf.length := by have := hr.usable.len; omega
  exact ignoring_both (PrefixFn.jsound knownNull_prefix) (RJ.still_within (consumeIdent_still _ _)) hr hj
    (by decide) (RJ.knownNull_runs hr.usable.sync hl hr.usable.fuel) b g op

theorem onString_both {s : RJ} (hr : Primed F s) (b : ToDdb) : BothAct k F Eq (onString F s b) (onString F (s.late k) b) := by
  unfold onString
  refine run_both _ hr fun b => ?_
  refine waits_long .raw b.d.w hr (g := fun x => match x with
    | ((rj, w), .ok ()) =>
      act (fun b => b.flushLong.bind fun b => (b.put [34] "writing S type closing quote").bind closeValue) .valueIsConsumed rj
        { b with d := { b.d with w := w } }
    | ((rj, w), .err _) => ((rj, { b with d := { b.d with w := w } }), .op (.error "Failed to write string value"))
    | ((rj, w), .panic) => ((rj, { b with d := { b.d with w := w } }), .panic)
    | ((rj, w), .diverge) => ((rj, { b with d := { b.d with w := w } }), .diverge)) ?_ ?_ ?_
  · intro s2 w2 hs2
    exact act_both _ _ hs2 _
  · intro s2 w2 e
    exact ⟨_, _, rfl, rfl⟩
  · intro s2 w2 e t i
    rfl

theorem onBool_both {s : RJ} (hr : Primed F s) (b : ToDdb) : BothAct k F Eq (onBool F s b) (onBool F (s.late k) b) := by
  unfold onBool
  refine peek_both hr (g := fun x => match x with
    | (rj, .ok peek) =>
      b.indent.run rj fun rj b =>
        if peek = 116 then
          ignoring b (act (fun b => (b.put [34, 66, 79, 79, 76, 34, 58, 116, 114, 117, 101] "writing BOOL true").bind closeValue)
            .valueIsConsumed) (rj.knownBool F peek)
        else if peek = 102 then
          ignoring b (act (fun b => (b.put [34, 66, 79, 79, 76, 34, 58, 102, 97, 108, 115, 101] "writing BOOL false").bind closeValue)
            .valueIsConsumed) (rj.knownBool F peek)
        else ((rj, b), .op (.error "Expected boolean value"))
    | (rj, .err _) => ((rj, b), .op (.error "Failed to peek boolean value"))
    | (rj, .panic) => ((rj, b), .panic)
    | (rj, .diverge) => ((rj, b), .diverge)) ?_ ?_ ?_
  · intro s' c t hs hj _
    refine run_both _ hs fun b => ?_
    split
    · rename_i h
      exact knownBool_both hs hj (.inl h) b _ _
    · split
      · rename_i h
        exact knownBool_both hs hj (.inr h) b _ _
      · exact .still hs rfl rfl
  · intro s' e
    exact ⟨_, _, rfl, rfl⟩
  · intro s' e t i
    rfl

theorem onNull_both {s : RJ} (hr : Primed F s) (b : ToDdb) : BothAct k F Eq (onNull F s b) (onNull F (s.late k) b) := by
  unfold onNull
  refine peek_both hr (g := fun x => match x with
    | (rj, .ok peek) =>
      if peek ≠ 110 then ((rj, b), .op (.error "Expected null value"))
      else
        ignoring b (act (fun b => b.indent.bind fun b =>
          (b.put [34, 78, 85, 76, 76, 34, 58, 116, 114, 117, 101] "writing NULL type").bind closeValue) .valueIsConsumed) (rj.knownNull F)
    | (rj, .err _) => ((rj, b), .op (.error "Failed to peek null value"))
    | (rj, .panic) => ((rj, b), .panic)
    | (rj, .diverge) => ((rj, b), .diverge)) ?_ ?_ ?_
  · intro s' c t hs hj _
    simp only
    split
    · exact .still hs rfl rfl
    · rename_i h
      have h : c = 110 := Decidable.not_not.mp h
      subst h
      exact knownNull_both hs hj b _ _
  · intro s' e
    exact ⟨_, _, rfl, rfl⟩
  · intro s' e t i
    rfl

theorem onNumber_both {s : RJ} (hr : Primed F s) (b : ToDdb) : BothAct k F Eq (onNumber F s b) (onNumber F (s.late k) b) := by
  have hl : 2 ≤ s.b.buf.length := by have := hr.usable.len; omega
  unfold onNumber
  refine waits_act (nextNumber_waits k hr) (RJ.nextNumberBytes_runs hr.usable.sync hl hr.usable.fuel) hr (g := fun x => match x with
    | (rj, .ok number) =>
      act (fun b => b.indent.bind fun b => (b.put [34, 78, 34, 58, 34] "writing N type opening").bind fun b =>
        (b.put (number.take 32) "writing number value").bind fun b =>
        (b.put [34] "writing N type closing quote").bind closeValue) .valueIsConsumed rj b
    | (rj, .err _) => ((rj, b), .op (.error "Failed to parse number"))
    | (rj, .panic) => ((rj, b), .panic)
    | (rj, .diverge) => ((rj, b), .diverge)) ?_ ?_ ?_
  · intro s2 v hs2
    exact act_both _ _ hs2 _
  · intro s2 e
    exact ⟨_, _, rfl, rfl⟩
  · intro s2 e t i
    rfl

theorem onAtom_both {s : RJ} (hr : Primed F s) (b : ToDdb) : BothAct k F Eq (onAtom F s b) (onAtom F (s.late k) b) := by
  unfold onAtom
  refine run_both _ hr fun b => ?_
  refine peek_both hr (g := fun x => match x with
    | (rj, .ok peek) =>
      if peek = 34 then onString F rj b
      else if peek = 116 ∨ peek = 102 then onBool F rj b
      else if peek = 110 then onNull F rj b
      else onNumber F rj b
    | (rj, .err _) => ((rj, b), .op (.error "Failed to peek atom value"))
    | (rj, .panic) => ((rj, b), .panic)
    | (rj, .diverge) => ((rj, b), .diverge)) ?_ ?_ ?_
  · intro s' c t hs hj _
    simp only
    split
    · exact onString_both hs b
    · split
      · exact onBool_both hs b
      · split
        · exact onNull_both hs b
        · exact onNumber_both hs b
  · intro s' e
    exact ⟨_, _, rfl, rfl⟩
  · intro s' e t i
    rfl

theorem onRootLiteral_both {s : RJ} (hr : Primed F s) (b : ToDdb) :
    BothAct k F Eq (onRootLiteral F s b) (onRootLiteral F (s.late k) b) := by
  unfold onRootLiteral
  refine run_both _ hr fun b => ?_
  have h := onAtom_both (k := k) hr b
  revert h
  rcases onAtom F s b with ⟨⟨s1, b1⟩, r1⟩
  rcases onAtom F (s.late k) b with ⟨⟨s2, b2⟩, r2⟩
  intro h
  rcases h with ⟨h, hp⟩ | h | ⟨h1, ⟨m1, h2⟩, m2, h3⟩
  · simp only [Prod.mk.injEq] at h
    obtain ⟨⟨rfl, rfl⟩, rfl⟩ := h
    rcases r2 with op | _ | _
    · simp only [act]
      rcases (b2.put [10] "writing final newline").bind (setComma false) with ⟨b3, _ | m⟩
      · exact .inl ⟨rfl, hp⟩
      · exact .inl ⟨rfl, fun h => by rcases h with h | h <;> cases h⟩
    · exact .inl ⟨rfl, hp⟩
    · exact .inl ⟨rfl, hp⟩
  · simp only [Prod.mk.injEq] at h
    obtain ⟨⟨rfl, rfl⟩, rfl⟩ := h
    exact .inr (.inl rfl)
  · simp only at h1 h2 h3
    subst h1 h2 h3
    simp only [act]
    rcases (b1.put [10] "writing final newline").bind (setComma false) with ⟨b3, _ | m⟩
    · exact .inr (.inr ⟨rfl, ⟨_, rfl⟩, _, rfl⟩)
    · exact .inr (.inr ⟨rfl, ⟨_, rfl⟩, _, rfl⟩)

/-- An action that does the same up to the end. -/
def Steady1 (k F : Nat) (act : Action ToDdb) : Prop := ∀ s, Primed F s → ∀ b, BothAct k F Eq (act s b) (act (s.late k) b)

theorem find_steady (p : Pseudo) (c : Ctx) (b : ToDdb) (act : Action ToDdb) (h : (find F p c b).2 = some act) : Steady1 k F act := by
  have hact : ∀ f op, Steady1 k F (ToDdb.act f op) := fun f op s hr b => act_both f op hr b
  have hatom : Steady1 k F (onAtom F) := fun s hr b => onAtom_both hr b
  have hlit : Steady1 k F (onRootLiteral F) := fun s hr b => onRootLiteral_both hr b
  have helem : Steady1 k F (onElementAtom F) := fun s hr b => run_both _ hr fun b => onAtom_both hr b
  unfold find at h
  repeat' split at h
  all_goals first
    | (cases h; done)
    | (injection h with h; subst h; first | exact hact _ _ | exact hatom | exact hlit | exact helem | (split <;> first | exact helem | exact hatom | exact hact _ _))

theorem patient (k F : Nat) : Patient (callbacks F) k F Eq :=
  ⟨fun _ => rfl, fun p c b _ hr act hact => find_steady p c b act hact _ hr _⟩

end ToDdb

end Verif.Ddb
