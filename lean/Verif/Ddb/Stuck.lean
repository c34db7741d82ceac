import Verif.Ddb.NormalReturns
import Verif.Ddb.ToDdbProps
import Verif.Scan.Accept
import Verif.RJiter.Words

/-!
# Where `convert_normal_to_ddb` does not get on

`on_bool_value_toddb` and `on_null_value_toddb` ignore the result of `known_bool` and `known_null`. If the call fails, the
parser stays where it is. This file compares the converter with one that stops there with an error.
-/

namespace Verif.Ddb

open Verif.U8Pool (Pool)
open Verif.RJiter
open Verif.Scan

namespace ToDdb

/-! ## The converter that stops -/

/-- `true`, `false` or `null` seems to come, and the call for it fails. -/
def lame (F : Nat) (s : RJ) : Bool :=
  match s.peek F with
  | (s, .ok c) =>
    if c = 116 ∨ c = 102 then
      match s.knownBool F c with
      | (_, .err _) => true
      | _ => false
    else if c = 110 then
      match s.knownNull F with
      | (_, .err _) => true
      | _ => false
    else false
  | _ => false

/-- The matchers of the converter, with actions that stop at a value that is `lame`. -/
def firm (F : Nat) : Callbacks ToDdb where
  find p c b :=
    match (callbacks F).find p c b with
    | (b', none) => (b', none)
    | (b', some a) => (b', some fun s b => if p = .atom ∧ lame F s = true then ((s, b), .op (.error "")) else a s b)
  findEnd := (callbacks F).findEnd

variable {F : Nat} {R : Room} {opt : Options}

theorem callAction_firm {p : Pseudo} {st : St ToDdb} (h : p = .atom → lame F st.rj = false) : callAction (firm F) p st = callAction (callbacks F) p st := by
  unfold callAction firm
  simp only
  rcases (callbacks F).find p (.of st.pool) st.baton with ⟨b, _ | a⟩
  · rfl
  · simp only
    rw [if_neg]
    rintro ⟨rfl, h2⟩
    rw [h rfl] at h2
    cases h2

theorem endStep_firm (p : Pseudo) (c : Ctx) (st : St ToDdb) (pool : Pool) : endStep (firm F) p c st pool = endStep (callbacks F) p c st pool := rfl

theorem handleKey_firm (begin : Bool) (st : St ToDdb) : handleKey F (firm F) begin st = handleKey F (callbacks F) begin st := by
  simp only [handleKey_eq, endStep_firm, callAction_firm (p := .none) (F := F) nofun]

theorem handleObject_firm (pos : Pos) (st : St ToDdb) : handleObject F (firm F) pos st = handleObject F (callbacks F) pos st := by
  simp only [handleObject_eq, endStep_firm, handleKey_firm, callAction_firm (p := .object) (F := F) nofun]
  rfl

theorem handleItem_firm (begin : Bool) (st : St ToDdb) : handleItem F (firm F) begin st = handleItem F (callbacks F) begin st := rfl

theorem handleArray_firm (pos : Pos) (st : St ToDdb) : handleArray F (firm F) pos st = handleArray F (callbacks F) pos st := by
  simp only [handleArray, handleItem_firm, callAction_firm (p := .array) (F := F) nofun]

/-! ## At a value that is not a word -/

/-- The parser is at a value that is not a word. -/
structure Dead (F : Nat) (s : RJ) : Prop where
  usable : Usable F s
  clean : s.b.reader.Clean
  wordless : Wordless s.rest

theorem Dead.moved {s s' : RJ} (h : Dead F s) (hm : s.Moved s' 0) : Dead F s' :=
  ⟨h.usable.moved hm, hm.clean h.clean, by rw [hm.rest]; exact h.wordless⟩

theorem Dead.peek {s : RJ} (h : Dead F s) : ∃ s1 c, s.peek F = (s1, .ok c) ∧ (c = 116 ∨ c = 102 ∨ c = 110) ∧ Dead F s1 ∧ s.Moved s1 0 := by
  obtain ⟨c, t, hr, hc, _⟩ := h.wordless
  obtain ⟨s1, h1, hm⟩ := RJ.peek_byte h.usable.sync (by have := h.usable.len; omega) h.usable.fuel h.clean hr (by rcases hc with rfl | rfl | rfl <;> decide)
  exact ⟨s1, c, h1, hc, h.moved hm, hm⟩

theorem Dead.lame {s : RJ} (h : Dead F s) : lame F s = true := by
  obtain ⟨s1, c, h1, hc, hd, hm⟩ := h.peek
  obtain ⟨c', t, hr, hc', hno⟩ := hd.wordless
  have hcc : c' = c := by
    obtain ⟨ws, t', e, hw, _, hs, _⟩ := RJ.peek_text h.usable.sync (by have := h.usable.len; omega) h.usable.fuel h1
    rw [hs] at hr
    injection hr with hr _
    exact hr.symm
  subst hcc
  have hl : 2 ≤ s1.b.buf.length := by have := hd.usable.len; omega
  simp only [ToDdb.lame, h1]
  by_cases hb : c' = 116 ∨ c' = 102
  · rw [if_pos hb]
    have hrun := RJ.knownBool_runs c' hd.usable.sync hl hd.usable.fuel
    rcases hx : s1.knownBool F c' with ⟨s2, v | e | _ | _⟩
    · exact absurd (RJ.knownBool_word hb hd.usable.sync (by omega) hd.usable.fuel hr hx) hno
    · rfl
    · rw [hx] at hrun; exact hrun.elim
    · rw [hx] at hrun; exact hrun.elim
  · rw [if_neg hb]
    have hn : c' = 110 := hc'.elim (fun h => absurd (.inl h) hb) fun h => h.elim (fun h => absurd (.inr h) hb) id
    subst hn
    rw [if_pos rfl]
    have hrun := RJ.knownNull_runs hd.usable.sync hl hd.usable.fuel
    rcases hx : s1.knownNull F with ⟨s2, v | e | _ | _⟩
    · exact absurd (RJ.knownNull_word hd.usable.sync (by omega) hd.usable.fuel hr hx) hno
    · rfl
    · rw [hx] at hrun; exact hrun.elim
    · rw [hx] at hrun; exact hrun.elim

/-- The converse: where the call fails, there is such a value. -/
theorem lame_wordless {s : RJ} (hu : Usable F s) (hcl : s.b.reader.Clean) (h : ToDdb.lame F s = true) :
    ∃ ws x, s.rest = ws ++ x ∧ Blank ws ∧ Wordless x := by
  unfold ToDdb.lame at h
  rcases hx : s.peek F with ⟨s1, c | e | _ | _⟩ <;> rw [hx] at h
  · obtain ⟨ws, t, e, hw, _, hr, n, hm⟩ := RJ.peek_text hu.sync (by have := hu.len; omega) hu.fuel hx
    have hu1 := hu.moved hm
    have hcl1 := hm.clean hcl
    refine ⟨ws, c :: t, e, .of_aws hw, ?_⟩
    rw [← hr]
    simp only at h
    by_cases hb : c = 116 ∨ c = 102
    · rw [if_pos hb] at h
      rcases hy : s1.knownBool F c with ⟨s2, v | e | _ | _⟩ <;> rw [hy] at h
      · simp at h
      · exact (RJ.knownBool_err hb hu1.sync hu1.len hu1.fuel hcl1 hr hy).2
      · simp at h
      · simp at h
    · rw [if_neg hb] at h
      by_cases hn : c = 110
      · rw [if_pos hn] at h
        subst hn
        rcases hy : s1.knownNull F with ⟨s2, v | e | _ | _⟩ <;> rw [hy] at h
        · simp at h
        · exact (RJ.knownNull_err hu1.sync hu1.len hu1.fuel hcl1 hr hy).2
        · simp at h
        · simp at h
      · rw [if_neg hn] at h; cases h
  · cases h
  · cases h
  · cases h

/-- What an action for such a value does: if it does not fail, it is `ValueIsConsumed`, and the parser is at such a value. -/
def Gnaws (F : Nat) : (RJ × ToDdb) × Acted → Prop
  | ((s, _), .op .valueIsConsumed) => Dead F s
  | (_, .op .none) => False
  | (_, .op (.error _)) => True
  | (_, .panic) => False
  | (_, .diverge) => False

theorem act_gnaws {s : RJ} (h : Dead F s) (f : ToDdb → Step) (b : ToDdb) : Gnaws F (act f .valueIsConsumed s b) := by
  unfold act Step.run
  rcases f b with ⟨b', _ | m⟩
  · exact h
  · trivial

theorem run_gnaws {x : Step} {s : RJ} {k : Action ToDdb} (h : ∀ b, Gnaws F (k s b)) : Gnaws F (x.run s k) := by
  unfold Step.run
  rcases x with ⟨b', _ | m⟩
  · exact h b'
  · trivial

theorem onAtom_gnaws {s : RJ} (hu : Usable F s) (hcl : s.b.reader.Clean) (h : lame F s = true) (b : ToDdb) : Gnaws F (onAtom F s b) := by
  unfold onAtom
  refine run_gnaws fun b => ?_
  unfold lame at h
  rcases hx : s.peek F with ⟨s1, c | e | _ | _⟩
  · rw [hx] at h
    obtain ⟨ws, t, _, _, _, hr, n, hm⟩ := RJ.peek_text hu.sync (by have := hu.len; omega) hu.fuel hx
    have hu1 := hu.moved hm
    have hcl1 := hm.clean hcl
    have hag := RJ.peek_again hx
    simp only at h ⊢
    by_cases hb : c = 116 ∨ c = 102
    · rw [if_pos hb] at h
      rw [if_neg (by rcases hb with rfl | rfl <;> decide), if_pos hb]
      rcases hy : s1.knownBool F c with ⟨s2, v | e | _ | _⟩ <;> rw [hy] at h
      · simp at h
      · obtain ⟨hm2, hw⟩ := RJ.knownBool_err hb hu1.sync hu1.len hu1.fuel hcl1 hr hy
        have hd : Dead F s2 := Dead.moved ⟨hu1, hcl1, hw⟩ hm2
        simp only [onBool, hag]
        refine run_gnaws fun b => ?_
        rw [hy]
        simp only [ignoring]
        rcases hb with rfl | rfl
        · rw [if_pos rfl]; exact act_gnaws hd _ _
        · rw [if_neg (by decide), if_pos rfl]; exact act_gnaws hd _ _
      · simp at h
      · simp at h
    · rw [if_neg hb] at h
      by_cases hn : c = 110
      · rw [if_pos hn] at h
        subst hn
        rw [if_neg (by decide), if_neg (by decide), if_pos rfl]
        rcases hy : s1.knownNull F with ⟨s2, v | e | _ | _⟩ <;> rw [hy] at h
        · simp at h
        · obtain ⟨hm2, hw⟩ := RJ.knownNull_err hu1.sync hu1.len hu1.fuel hcl1 hr hy
          have hd : Dead F s2 := Dead.moved ⟨hu1, hcl1, hw⟩ hm2
          simp only [onNull, hag]
          rw [if_neg (by simp), hy]
          simp only [ignoring]
          exact act_gnaws hd _ _
        · simp at h
        · simp at h
      · rw [if_neg hn] at h; cases h
  · rw [hx] at h; cases h
  · rw [hx] at h; cases h
  · rw [hx] at h; cases h

theorem onRootLiteral_gnaws {s : RJ} (hu : Usable F s) (hcl : s.b.reader.Clean) (h : lame F s = true) (b : ToDdb) :
    Gnaws F (onRootLiteral F s b) := by
  unfold onRootLiteral
  refine run_gnaws fun b => ?_
  have := onAtom_gnaws hu hcl h b
  revert this
  rcases onAtom F s b with ⟨⟨s1, b1⟩, (_ | _ | m) | _ | _⟩ <;> intro this
  · exact this.elim
  · exact act_gnaws this _ _
  · simp only [act, Step.run]
    rcases (b1.put [10] "writing final newline").bind (setComma false) with ⟨b2, _ | m⟩ <;> trivial
  · exact this.elim
  · exact this.elim

/-- `scan` at such a value. -/
theorem callAction_gnaws {st : St ToDdb} (hu : Usable F st.rj) (hcl : st.rj.b.reader.Clean) (h : lame F st.rj = true) :
    (∃ st', callAction (callbacks F) .atom st = (st', .consumed) ∧ Dead F st'.rj ∧ st'.pool = st.pool) ∨
    ∃ st' e, callAction (callbacks F) .atom st = (st', .leave (.err e)) := by
  have hg : ∃ b a, (callbacks F).find .atom (.of st.pool) st.baton = (b, some a) ∧ Gnaws F (a st.rj b) := by
    simp only [callbacks, find]
    rcases (Ctx.of st.pool).path with _ | ⟨parent, l⟩
    · exact ⟨_, _, rfl, onAtom_gnaws hu hcl h _⟩
    · simp only
      by_cases hp : parent = nameTop
      · rw [if_pos hp]
        exact ⟨_, _, rfl, onRootLiteral_gnaws hu hcl h _⟩
      · rw [if_neg hp]
        refine ⟨_, _, rfl, ?_⟩
        split
        · exact run_gnaws fun b => onAtom_gnaws hu hcl h b
        · exact onAtom_gnaws hu hcl h _
  obtain ⟨b, a, h1, h2⟩ := hg
  unfold callAction
  rw [h1]
  simp only
  revert h2
  rcases a st.rj b with ⟨⟨s1, b1⟩, (_ | _ | m) | _ | _⟩ <;> intro h2
  · exact h2.elim
  · exact .inl ⟨_, rfl, h2, rfl⟩
  · exact .inr ⟨_, _, rfl⟩
  · exact h2.elim
  · exact h2.elim

/-- A turn at such a value at the top: an error, or the same again. -/
theorem turn_dead_top {st : St ToDdb} (h : Dead F st.rj) :
    (∃ st', turn F (callbacks F) opt .top st = (st', .next .top) ∧ Dead F st'.rj ∧ st'.pool = st.pool) ∨
    ∃ st' e, turn F (callbacks F) opt .top st = (st', .done (.err e)) := by
  obtain ⟨s1, c, h1, hc, hd, _⟩ := h.peek
  unfold turn
  simp only [reduceCtorEq, or_self, if_false, h1]
  have h91 : c ≠ 91 ∧ c ≠ 123 := by rcases hc with rfl | rfl | rfl <;> decide
  rw [onValue_eq, if_neg h91.1, if_neg h91.2]
  rcases callAction_gnaws (st := { st with rj := s1 }) hd.usable hd.clean hd.lame with ⟨st', e, h2, h3⟩ | ⟨st', er, e⟩
  · rw [e]; exact .inl ⟨st', rfl, h2, h3⟩
  · rw [e]; exact .inr ⟨st', er, rfl⟩

/-- Inside of an array or object it is an error. -/
theorem turn_dead {st : St ToDdb} (h : Dead F st.rj) {l : List (Pos × Bytes)} (hl0 : Holds st.pool R l) {pos : Pos}
    (hp : pos = .arrayMiddle ∨ pos = .objectMiddle) : ∃ st' e, turn F (callbacks F) opt pos st = (st', .done (.err e)) ∧ st'.baton = st.baton := by
  obtain ⟨c, t, hr, hc, _⟩ := h.wordless
  have hl : 1 < st.rj.b.buf.length := by have := h.usable.len; omega
  rcases hp with rfl | rfl
  · obtain ⟨s', e, he, _⟩ := RJ.arrayStep_fails (s := st.rj) (fuel := F) h.usable.sync hl h.clean h.usable.fuel (ws := []) hr Jiter.Ws.nil
      (by rcases hc with rfl | rfl | rfl <;> decide) (by rcases hc with rfl | rfl | rfl <;> decide) (by rcases hc with rfl | rfl | rfl <;> decide)
    unfold turn
    simp only [reduceCtorEq, or_self, or_true, if_false, if_true, handleArray, handleItem_eq, he, Bool.false_eq_true]
    exact ⟨_, _, rfl, rfl⟩
  · obtain ⟨s', e, he, _⟩ := RJ.nextKey_fails (s := st.rj) (fuel := F) h.usable.sync hl h.clean h.usable.fuel (ws := []) hr Jiter.Ws.nil
      (by rcases hc with rfl | rfl | rfl <;> decide) (by rcases hc with rfl | rfl | rfl <;> decide) (by rcases hc with rfl | rfl | rfl <;> decide)
    have hk : ∀ st2 : St ToDdb, st2.rj = st.rj → ∃ st' e, handleKey F (callbacks F) false st2 = (st', .err e) ∧ st'.baton = st2.baton := by
      intro st2 h2
      rw [handleKey_eq]
      simp only [Bool.false_eq_true, if_false, h2, he]
      exact ⟨_, _, rfl, rfl⟩
    unfold turn
    simp only [or_true, if_true]
    rw [handleObject_eq, if_neg (by simp)]
    obtain ⟨p, hpop, _⟩ := Verif.U8Pool.Rel.popAssoc hl0 posLayout
    rw [hpop]
    have hend : endStep (callbacks F) .none (.of st.pool) st p = ({ st with pool := p }, none) := by
      unfold endStep
      have : (callbacks F).findEnd .none (.of st.pool) st.baton = (st.baton, none) := by
        simp only [callbacks, findEnd]
        rcases (Ctx.of st.pool).path with _ | ⟨parent, l⟩
        · rfl
        · simp only; split <;> rfl
      rw [this]
      rfl
    simp only [hend]
    obtain ⟨st', e, h1, h2⟩ := hk { st with pool := p } rfl
    rw [h1]
    exact ⟨_, _, rfl, h2⟩

/-- The converter does not return `Ok` from there. -/
theorem mainLoop_dead (hse : opt.stopEarly = false) {l : List (Pos × Bytes)} : ∀ (n : Nat) (b : Bool) (pos : Pos) (st : St ToDdb), Dead F st.rj →
    Holds st.pool R l → Resting pos → (mainLoop F (callbacks F) opt n b pos st).2 ≠ .ok () := by
  intro n
  induction n with
  | zero => intro b pos st _ _ _; simp [mainLoop]
  | succ n ih =>
    intro b pos st hd hl hp
    unfold mainLoop
    rw [if_neg (by simp [hse])]
    rcases hp with rfl | hp
    · rcases turn_dead_top (opt := opt) hd with ⟨st', e, h1, h2⟩ | ⟨st', er, e⟩
      · rw [e]; exact ih true .top st' h1 (by rw [h2]; exact hl) (.inl rfl)
      · rw [e]; simp
    · obtain ⟨st', r, e, _⟩ := turn_dead (opt := opt) hd hl hp
      rw [e]; simp

/-! ## The two converters side by side -/

theorem act_gives {s0 s : RJ} (f : ToDdb → Step) (op : StreamOp) {n : Nat} (hm : s0.Moved s n) (ho : op = .valueIsConsumed → 1 ≤ n) (b : ToDdb) :
    Gives s0 (act f op s b) := by
  unfold act Step.run
  rcases f b with ⟨b', _ | m⟩
  · cases op with
    | none => exact ⟨n, hm⟩
    | valueIsConsumed => exact ⟨n, ho rfl, hm⟩
    | error m => trivial
  · trivial

theorem run_gives {s : RJ} {x : Step} {k : Action ToDdb} (h : ∀ b, Gives s (k s b)) : Gives s (x.run s k) := by
  unfold Step.run
  rcases x with ⟨b', _ | m⟩
  · exact h b'
  · trivial

theorem onAtom_gives {s : RJ} (hu : Usable F s) (h : lame F s = false) (b : ToDdb) : Gives s (onAtom F s b) := by
  unfold onAtom
  refine run_gives fun b => ?_
  unfold lame at h
  have hp := RJ.peek_runs hu.sync (by have := hu.len; omega) hu.fuel
  rcases hx : s.peek F with ⟨s1, c | e | _ | _⟩ <;> rw [hx] at hp
  · rw [hx] at h
    obtain ⟨n, _, hm⟩ := hp
    have hu1 := hu.moved hm
    have hl1 : 2 ≤ s1.b.buf.length := by have := hu1.len; omega
    have hag := RJ.peek_again hx
    have hrun : ∀ {x : Step} {k : Action ToDdb}, (∀ b, Gives s (k s1 b)) → Gives s (x.run s1 k) := by
      intro x k h
      unfold Step.run
      rcases x with ⟨b', _ | m⟩
      · exact h b'
      · trivial
    simp only at h ⊢
    split
    · refine hrun fun b => ?_
      simp only [RJ.writeLongBytes]
      have hl := RJ.handleLong_runs .raw b.d.w hu1.sync hu1.len hu1.fuel
      generalize RJ.handleLong .raw F s1 b.d.w = y at hl ⊢
      rcases y with ⟨⟨s2, w⟩, _ | e | _ | _⟩
      · obtain ⟨k, hk, hm2⟩ := hl
        exact act_gives _ _ (hm.trans hm2) (by omega) _
      · trivial
      · exact hl
      · exact hl
    · split
      · rename_i hb
        rw [if_pos hb] at h
        simp only [onBool, hag]
        refine hrun fun b => ?_
        have hl := RJ.knownBool_runs c hu1.sync hl1 hu1.fuel
        rcases hy : s1.knownBool F c with ⟨s2, v | e | _ | _⟩ <;> rw [hy] at hl h
        · obtain ⟨k, hk, hm2⟩ := hl
          simp only [ignoring]
          split
          · exact act_gives _ _ (hm.trans hm2) (by omega) _
          · split
            · exact act_gives _ _ (hm.trans hm2) (by omega) _
            · trivial
        · simp at h
        · exact hl.elim
        · exact hl.elim
      · rename_i hb
        rw [if_neg hb] at h
        split
        · rename_i hn
          rw [if_pos hn] at h
          simp only [onNull, hag]
          rw [if_neg (by simp [hn])]
          have hl := RJ.knownNull_runs hu1.sync hl1 hu1.fuel
          rcases hy : s1.knownNull F with ⟨s2, v | e | _ | _⟩ <;> rw [hy] at hl h
          · obtain ⟨k, hk, hm2⟩ := hl
            simp only [ignoring]
            exact act_gives _ _ (hm.trans hm2) (by omega) _
          · simp at h
          · exact hl.elim
          · exact hl.elim
        · unfold onNumber
          have hl := RJ.nextNumberBytes_runs hu1.sync hl1 hu1.fuel
          rcases hy : s1.nextNumberBytes F with ⟨s2, v | e | _ | _⟩ <;> rw [hy] at hl
          · obtain ⟨k, hk, hm2⟩ := hl
            exact act_gives _ _ (hm.trans hm2) (by omega) _
          · trivial
          · exact hl
          · exact hl
  · trivial
  · exact hp
  · exact hp

theorem onRootLiteral_gives {s : RJ} (hu : Usable F s) (h : lame F s = false) (b : ToDdb) : Gives s (onRootLiteral F s b) := by
  unfold onRootLiteral
  refine run_gives fun b => ?_
  have := onAtom_gives hu h b
  revert this
  rcases onAtom F s b with ⟨⟨s1, b1⟩, (_ | _ | m) | _ | _⟩ <;> intro this
  · obtain ⟨n, hm⟩ := this
    exact act_gives _ _ hm (by simp) _
  · obtain ⟨n, hn, hm⟩ := this
    exact act_gives _ _ hm (fun _ => hn) _
  · simp only [act, Step.run]
    rcases (b1.put [10] "writing final newline").bind (setComma false) with ⟨b2, _ | m⟩ <;> trivial
  · exact this.elim
  · exact this.elim

theorem firm_fair (F : Nat) : Fair (firm F) F (fun _ => True) := by
  apply fair_of
  intro p path b b' a s h hu
  simp only [firm] at h
  rcases hx : (callbacks F).find p ⟨path, path.length⟩ b with ⟨b1, _ | a1⟩
  · rw [hx] at h; simp at h
  · rw [hx] at h
    simp only [Prod.mk.injEq, Option.some.injEq] at h
    obtain ⟨rfl, rfl⟩ := h
    simp only
    by_cases hl : p = .atom ∧ lame F s = true
    · rw [if_pos hl]; trivial
    · rw [if_neg hl]
      simp only [callbacks, find] at hx
      have hact : ∀ f : ToDdb → Step, Gives s (act f .none s b1) := fun f => act_gives _ _ (.refl hu.sync) (by simp) _
      have hatom : p = .atom → lame F s = false := by
        intro hp
        cases hb : lame F s with
        | false => rfl
        | true => exact absurd ⟨hp, hb⟩ hl
      rcases path with _ | ⟨parent, l⟩
      · cases p <;> simp only [Prod.mk.injEq, Option.some.injEq, reduceCtorEq, and_false] at hx
        · obtain ⟨_, rfl⟩ := hx; exact hact _
        · obtain ⟨_, rfl⟩ := hx; exact onAtom_gives hu (hatom rfl) _
      · simp only at hx
        by_cases hp : parent = nameTop
        · rw [if_pos hp] at hx
          cases p <;> simp only [Prod.mk.injEq, Option.some.injEq, reduceCtorEq, and_false] at hx
          · obtain ⟨_, rfl⟩ := hx; exact hact _
          · obtain ⟨_, rfl⟩ := hx; exact hact _
          · obtain ⟨_, rfl⟩ := hx; exact onRootLiteral_gives hu (hatom rfl) _
        · rw [if_neg hp] at hx
          cases p <;> simp only [Prod.mk.injEq, Option.some.injEq] at hx <;> obtain ⟨_, rfl⟩ := hx
          · split <;> exact hact _
          · split <;> exact hact _
          · split
            · exact run_gives fun b => onAtom_gives hu (hatom rfl) b
            · exact onAtom_gives hu (hatom rfl) _
          · exact hact _

/-- A turn of the two: the same, or the one has stopped and the other one is at a value that is not a word. -/
theorem onValue_firm (c : Byte) {pos : Pos} {st : St ToDdb} (hu : Usable F st.rj) (hcl : st.rj.b.reader.Clean) :
    onValue F (firm F) opt c pos st = onValue F (callbacks F) opt c pos st ∨
    (∃ st', onValue F (callbacks F) opt c pos st = (st', .next pos) ∧ Dead F st'.rj ∧ st'.pool = st.pool ∧
      ∃ ws x, st.rj.rest = ws ++ x ∧ Blank ws ∧ Wordless x) ∨
    ∃ st' e, onValue F (callbacks F) opt c pos st = (st', .done (.err e)) := by
  rw [onValue_eq, onValue_eq]
  by_cases h1 : c = 91
  · left; simp [h1]
  by_cases h2 : c = 123
  · left; simp [h2]
  rw [if_neg h1, if_neg h2, if_neg h1, if_neg h2]
  cases hb : lame F st.rj with
  | false => left; rw [callAction_firm fun _ => hb]
  | true =>
    right
    rcases callAction_gnaws hu hcl hb with ⟨st', e, h3, h4⟩ | ⟨st', er, e⟩
    · rw [e]; exact .inl ⟨st', rfl, h3, h4, lame_wordless hu hcl hb⟩
    · rw [e]; exact .inr ⟨st', er, rfl⟩

theorem turn_firm {pos : Pos} {st : St ToDdb} (h : Between F True (fun _ : ToDdb => True) R pos st) :
    turn F (firm F) opt pos st = turn F (callbacks F) opt pos st ∨
    (∃ p st', turn F (callbacks F) opt pos st = (st', .next p) ∧
      (p = .top → pos = .top ∧ ∃ ws x, st.rj.rest = ws ++ x ∧ Blank ws ∧ Wordless x) ∧ Resting p ∧ Dead F st'.rj ∧ ∃ l, Holds st'.pool R l) ∨
    ∃ st' e, turn F (callbacks F) opt pos st = (st', .done (.err e)) := by
  unfold turn
  by_cases h1 : pos = .objectBegin ∨ pos = .objectMiddle
  · left; rw [if_pos h1, if_pos h1, handleObject_firm]
  rw [if_neg h1, if_neg h1]
  by_cases h2 : pos = .arrayBegin ∨ pos = .arrayMiddle
  · rw [if_pos h2, if_pos h2, handleArray_firm]
    have hl := handleArray_lands (firm_fair F) h h2
    rw [handleArray_firm] at hl
    revert hl
    rcases handleArray F (callbacks F) pos st with ⟨st2, ⟨_ | c, p⟩ | e | _ | _⟩ <;> intro hl
    · exact .inl rfl
    · obtain ⟨rfl, hb, _⟩ := hl
      simp only [if_true]
      rcases onValue_firm (opt := opt) c hb.fit.toUsable (hb.fit.clean trivial) with h3 | ⟨st', e, h3, h4, _⟩ | h3
      · exact .inl h3
      · obtain ⟨l, hl, _⟩ := hb.stack
        exact .inr (.inl ⟨_, st', e, nofun, .inr (.inl rfl), h3, l, by rw [h4]; exact hl⟩)
      · exact .inr (.inr h3)
    · exact .inl rfl
    · exact .inl rfl
    · exact .inl rfl
  rw [if_neg h2, if_neg h2]
  have hp := RJ.peek_runs h.fit.sync (by have := h.fit.len; omega) h.fit.fuel
  rcases hx : st.rj.peek F with ⟨s1, c | e | _ | _⟩ <;> rw [hx] at hp
  · obtain ⟨n, _, hm⟩ := hp
    have hf := h.fit.moved hm
    simp only
    rcases onValue_firm (opt := opt) (st := { st with rj := s1 }) (pos := if pos = .objectBetweenKV then .objectMiddle else pos) c hf.toUsable (hf.clean trivial) with h3 | ⟨st', e, h3, h4, ws, x, h5, h6, h7⟩ | h3
    · exact .inl h3
    · obtain ⟨l, hl, _⟩ := h.stack
      refine .inr (.inl ⟨_, st', e, ?_, ?_, h3, l, by rw [h4]; exact hl⟩)
      · intro ht
        obtain ⟨ws0, t, e0, hw, _, hr, _⟩ := RJ.peek_text h.fit.sync (by have := h.fit.len; omega) h.fit.fuel hx
        refine ⟨?_, ws0 ++ ws, x, by rw [e0, ← hr]; simp only at h5; rw [h5, List.append_assoc], (Blank.of_aws hw).append h6, h7⟩
        split at ht
        · cases ht
        · exact ht
      · cases pos <;> simp_all [Resting]
    · exact .inr (.inr h3)
  · exact .inl rfl
  · exact .inl rfl
  · exact .inl rfl

/-- If the converter returns `Ok`, the one that stops does the same. -/
theorem mainLoop_firm (ht : opt.sseTokens = []) (hse : opt.stopEarly = false) {st' : St ToDdb} : ∀ (n : Nat) (b : Bool) (pos : Pos) (st : St ToDdb),
    Between F True (fun _ : ToDdb => True) R pos st → mainLoop F (callbacks F) opt n b pos st = (st', .ok ()) →
    mainLoop F (firm F) opt n b pos st = (st', .ok ()) := by
  intro n
  induction n with
  | zero => intro b pos st _ h; simp [mainLoop] at h
  | succ n ih =>
    intro b pos st hb h
    unfold mainLoop at h ⊢
    rw [if_neg (by simp [hse])] at h ⊢
    have htt := turn_turns (firm_fair F) (opt := opt) (by rw [ht]; exact tokensRun_nil) hb
    rcases turn_firm (opt := opt) hb with h1 | ⟨p, st2, h1, _, h2, h3, _, hl⟩ | ⟨st2, e, h1⟩
    · rw [h1] at htt ⊢
      rcases hx : turn F (callbacks F) opt pos st with ⟨st2, p | r⟩
      · rw [hx] at h htt
        exact ih true p st2 htt.1 h
      · rw [hx] at h
        exact h
    · rw [h1] at h
      exact absurd (congrArg (·.2) h) (mainLoop_dead hse n true p st2 h3 hl h2)
    · rw [h1] at h
      simp at h

theorem scan_firm {turns : Nat} (ht : opt.sseTokens = []) (hse : opt.stopEarly = false) {st st' : St ToDdb} (hu : Usable F st.rj)
    (hcl : st.rj.b.reader.Clean) {l : List (Pos × Bytes)} (hl : Holds st.pool R l) (h : scan turns F (callbacks F) opt st = (st', .ok ())) :
    scan turns F (firm F) opt st = (st', .ok ()) := by
  unfold scan at h ⊢
  by_cases hfit : R.Fits (names l) nameTop
  · obtain ⟨p', r, e, hp⟩ := hl.push .top nameTop hfit
    rw [e] at h ⊢
    exact mainLoop_firm ht hse (R := R) _ _ _ _ ⟨⟨hu, fun _ => hcl⟩, trivial, _, hp, .top _ _, ⟨_, _, rfl⟩⟩ h
  · obtain ⟨p', er, e, _⟩ := hl.push_full .top nameTop hfit
    rw [e] at h
    simp at h

end ToDdb

end Verif.Ddb
