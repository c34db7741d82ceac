import Verif.Ddb.SoundDdb
import Verif.Ddb.Endless

/-!
# Where `convert_normal_to_ddb` does not return (C82)

The action for a literal does not look at the result of `known_bool` and `known_null` (normal_to_ddb.rs lines 253, 259 and 290). At the top level a word
that is not quite `true`, `false` or `null` is therefore written as if it were complete, it stays where it is in the input, and the next turn of the
loop finds it again. This file shows that this is the only way not to return, for a reader that does not fail; that it happens behind every stream of
documents; that no JSON text of usual form gets there; and that one JSON document does.
-/

namespace Verif.Ddb

open Verif.U8Pool (Pool)
open Verif.RJiter
open Verif.Scan

namespace ToDdb

variable {F : Nat} {strict : Care} {R : Room}

/-! ## It returns, or it comes to a broken word at the top level -/

/-- With the guard a turn is the same, and the condition is kept. -/
theorem guard_turn {β : Type} {K : β → Prop} {cb : Callbacks β} {Q : String → RJ → β → Prop} (h : Keeps cb K Q) (opt : Options) (pos : Pos) (st : St β)
    (hK : K st.baton) : turn F (guardCb K cb) opt pos st = turn F cb opt pos st ∧
    ∀ st' p, turn F cb opt pos st = (st', .next p) → K st'.baton := by
  obtain ⟨g, e1, e2⟩ := turn_same (guard_sim h) F opt pos st.rj st.baton st.baton st.pool ⟨rfl, hK⟩
  rw [show (⟨st.rj, st.baton, st.pool⟩ : St β) = st from rfl] at e1 e2
  rcases hs : turn F cb opt pos st with ⟨⟨rj, b, p⟩, r⟩
  rw [hs] at e1 e2
  have hbg : b = g := by
    rcases e2 with ⟨⟨h, _⟩, _⟩ | ⟨_, _, h⟩ <;> exact h
  refine ⟨by rw [e1, ← hbg], fun st' p' e => ?_⟩
  simp only [Prod.mk.injEq] at e
  obtain ⟨rfl, rfl⟩ := e
  exact e2.rel.2

/-- Documents, and then space and a broken word. -/
def atBroken (strict : Care) (R : Room) : Aim ToDdb := fun n l rest b b' last =>
  ∃ ds ws, rest = Docs.text ds (ws ++ last) ∧ Docs.Loose strict.safe ds ws ∧ Docs.Parted strict.len ds (ws ++ last) ∧
    Docs.scan guarded R (n :: names l) ds b = .done b' ∧ Wordless last

theorem mainLoop_halts : ∀ (n : Nat) (pr : Bool) (pos : Pos) (l : List (Pos × Bytes)) (st : St ToDdb), Fwd F strict R pos l st → Warm pos st.rj →
    st.rj.b.reader.Clean → Well sound st.baton → cost pos st + 1 < n →
    ((mainLoop F (callbacks F) ⟨[], false⟩ n pr pos st).2 ≠ .panic ∧ (mainLoop F (callbacks F) ⟨[], false⟩ n pr pos st).2 ≠ .diverge) ∨
    ∃ b' last, Ahead strict (atBroken strict R) guarded R (0 < st.rj.jidx) pos l st.rj.rest st.baton b' last := by
  intro n
  induction n with
  | zero => intro pr pos l st _ _ _ _ h; omega
  | succ n ih =>
    intro pr pos l st hf hwarm hcl hK hn
    unfold mainLoop
    rw [if_neg (by simp)]
    have hb : Between F True (fun _ : ToDdb => True) R pos st :=
      ⟨⟨hf.fine.usable, fun _ => hcl⟩, trivial, l, hf.holds, hf.frames, hf.onTop⟩
    rcases turn_firm (opt := ⟨[], false⟩) hb with h1 | ⟨p, st2, h1, h2, h3, h4, l2, h5⟩ | ⟨st2, e, h1⟩
    · have tt := turn_turns (firm_fair F) (opt := ⟨[], false⟩) tokensRun_nil hb
      obtain ⟨gt, gk⟩ := guard_turn (F := F) (firm_keep F sound) ⟨[], false⟩ pos st hK
      have tb := turn_back (aim := atBroken strict R) (opt := ⟨[], false⟩) (guard_sees (sees (F := F) (strict := strict))) rfl hf hwarm
      rw [gt] at tb
      rw [h1] at tt tb gk
      rcases hx : turn F (callbacks F) ⟨[], false⟩ pos st with ⟨st2, p | r⟩ <;> rw [hx] at tt tb gk
      · obtain ⟨l', g1, g1w, g2⟩ := tb
        obtain ⟨t1, t2⟩ := tt
        rcases ih true p l' st2 g1 g1w (t1.fit.clean trivial) (gk _ _ rfl) (by omega) with h | ⟨b', last, h⟩
        · exact .inl h
        · refine .inr ⟨b', last, ?_⟩
          have := g2 _ _ h
          unfold TurnPre at this
          by_cases ht : pos = .top
          · rw [if_pos ht] at this
            subst ht
            obtain ⟨m, t, rfl⟩ := hf.onTop
            obtain ⟨ws, v, x, b1, k1, k2, _, k3, _, kp, k4, k5⟩ := this
            simp only [Ahead, Tail] at k5 ⊢
            obtain ⟨ds, tail, j1, j2, jp, j3, j4⟩ := k5
            refine ⟨(ws, v) :: ds, tail, by rw [k1, j1]; rfl, ⟨k2, k3, j2⟩, ⟨j1 ▸ kp, jp⟩, ?_, j4⟩
            have k4 : v.scan guarded R (m :: names t) st.baton = .done b1 := k4
            simp only [Docs.scan, k4, Out.bind, j3]
          · rw [if_neg ht] at this
            exact this
      · exact .inl ⟨tt.1, tt.2.1⟩
    · rcases h3 with rfl | h3
      · obtain ⟨rfl, ws, x, e, hw, hx⟩ := h2 rfl
        obtain ⟨m, t, rfl⟩ := hf.onTop
        exact .inr ⟨st.baton, x, [], ws, e, hw, trivial, rfl, hx⟩
      · left
        rw [h1]
        simp only
        obtain ⟨st3, e, h6, _⟩ := turn_dead (opt := ⟨[], false⟩) h4 h5 h3
        obtain ⟨k, rfl⟩ : ∃ k, n = k + 1 := ⟨n - 1, by omega⟩
        unfold mainLoop
        rw [if_neg (by simp), h6]
        simp
    · rw [h1]
      simp

/-! ## At a broken word at the top level it writes for ever -/

theorem fine_word {c : Byte} (hc : c = 116 ∨ c = 102 ∨ c = 110) (b : ToDdb) : Fine b (spell (wordOf c) b) := by
  rcases hc with rfl | rfl | rfl <;> simp only [spell, wordOf] <;>
    exact (fine_indent b).bind fun b => (fine_put _ _ b).bind fine_closeValue

theorem fine_literal {c : Byte} (hc : c = 116 ∨ c = 102 ∨ c = 110) (b : ToDdb) : Fine b (literal (wordOf c) b) :=
  ((fine_put _ _ b).bind fine_inc).bind fun b => ((fine_writeComma b).bind (fine_word hc)).bind fun b => (fine_put _ _ b).bind (fine_setComma false)

/-- The calls for a broken word. -/
theorem Dead.calls {s : RJ} (h : Dead F s) {c : Byte} {t : Bytes} (hr : s.rest = c :: t) :
    ∃ s1 s2 e, s.peek F = (s1, .ok c) ∧ ((c = 116 ∨ c = 102) ∧ s1.knownBool F c = (s2, .err e) ∨ c = 110 ∧ s1.knownNull F = (s2, .err e)) ∧
      Dead F s2 ∧ s2.rest = c :: t := by
  obtain ⟨s1, c', h1, hc, hd, hm⟩ := h.peek
  have hr1 : s1.rest = c :: t := by rw [hm.rest, hr]; rfl
  have hcc : c' = c := by
    obtain ⟨_, _, _, _, _, hs, _⟩ := RJ.peek_text h.usable.sync (by have := h.usable.len; omega) h.usable.fuel h1
    rw [hs] at hr1
    injection hr1
  subst hcc
  obtain ⟨c2, t2, hr2, _, hno⟩ := hd.wordless
  rw [hr1] at hr2 hno
  injection hr2 with e1 _
  subst e1
  have hl : 2 ≤ s1.b.buf.length := by have := hd.usable.len; omega
  by_cases hb : c' = 116 ∨ c' = 102
  · have hrun := RJ.knownBool_runs c' hd.usable.sync hl hd.usable.fuel
    rcases hx : s1.knownBool F c' with ⟨s2, v | e | _ | _⟩
    · exact absurd (hr1 ▸ RJ.knownBool_word hb hd.usable.sync (by omega) hd.usable.fuel hr1 hx) hno
    · obtain ⟨hm2, _⟩ := RJ.knownBool_err hb hd.usable.sync hd.usable.len hd.usable.fuel hd.clean hr1 hx
      exact ⟨s1, s2, e, h1, .inl ⟨hb, hx⟩, hd.moved hm2, by rw [hm2.rest, hr1]; rfl⟩
    · rw [hx] at hrun; exact hrun.elim
    · rw [hx] at hrun; exact hrun.elim
  · have hn : c' = 110 := hc.elim (fun h => absurd (.inl h) hb) fun h => h.elim (fun h => absurd (.inr h) hb) id
    subst hn
    have hrun := RJ.knownNull_runs hd.usable.sync hl hd.usable.fuel
    rcases hx : s1.knownNull F with ⟨s2, v | e | _ | _⟩
    · exact absurd (hr1 ▸ RJ.knownNull_word hd.usable.sync (by omega) hd.usable.fuel hr1 hx) hno
    · obtain ⟨hm2, _⟩ := RJ.knownNull_err hd.usable.sync hd.usable.len hd.usable.fuel hd.clean hr1 hx
      exact ⟨s1, s2, e, h1, .inr ⟨rfl, hx⟩, hd.moved hm2, by rw [hm2.rest, hr1]; rfl⟩
    · rw [hx] at hrun; exact hrun.elim
    · rw [hx] at hrun; exact hrun.elim

/-- The action for a broken word writes the word, and leaves it where it is. -/
theorem onRootLiteral_dead {s : RJ} (h : Dead F s) {c : Byte} {t : Bytes} (hr : s.rest = c :: t) {b : ToDdb} (hb : Well sound b) :
    ∃ s' b', literal (wordOf c) b = (b', none) ∧ onRootLiteral F s b = ((s', b'), .op .valueIsConsumed) ∧ Dead F s' ∧ s'.rest = c :: t ∧ Well sound b' := by
  obtain ⟨s1, s2, e, h1, h2, h3, h4⟩ := h.calls hr
  have hc : c = 116 ∨ c = 102 ∨ c = 110 := h2.elim (fun h => h.1.elim .inl fun h => .inr (.inl h)) fun h => .inr (.inr h.1)
  have hag := RJ.peek_again h1
  obtain ⟨b1, f1, hb1⟩ := Fine.well (b := b) (x := (b.put [123] "writing root literal opening brace").bind inc) ((fine_put _ _ b).bind fine_inc) hb
  obtain ⟨b2, f2, hb2⟩ := (fine_writeComma b1).well hb1
  obtain ⟨b3, f3, hb3⟩ := (fine_word hc b2).well hb2
  obtain ⟨b4, f4, hb4⟩ := Fine.well (b := b3) (x := (b3.put [10] "writing final newline").bind (setComma false)) ((fine_put _ _ b3).bind (fine_setComma false)) hb3
  have hatom : onAtom F s b1 = ((s2, b3), .op .valueIsConsumed) := by
    unfold onAtom
    rw [Step.run_none f2, h1]
    simp only
    rcases h2 with ⟨rfl | rfl, h2⟩ | ⟨rfl, h2⟩
    · rw [if_neg (by decide), if_pos (by decide)]
      unfold onBool
      rw [hag]
      obtain ⟨b5, f5, _⟩ := (fine_indent b2).well hb2
      simp only
      rw [Step.run_none f5, if_pos (by simp), h2]
      simp only [ignoring, act]
      have f3 : b2.indent.bind (fun b => (b.put [34, 66, 79, 79, 76, 34, 58, 116, 114, 117, 101] "writing BOOL true").bind closeValue) = (b3, none) := f3
      rw [Step.bind_none f5] at f3
      exact Step.run_none f3 _ _
    · rw [if_neg (by decide), if_pos (by decide)]
      unfold onBool
      rw [hag]
      obtain ⟨b5, f5, _⟩ := (fine_indent b2).well hb2
      simp only
      rw [Step.run_none f5, if_neg (by decide), if_pos (by simp), h2]
      simp only [ignoring, act]
      have f3 : b2.indent.bind (fun b => (b.put [34, 66, 79, 79, 76, 34, 58, 102, 97, 108, 115, 101] "writing BOOL false").bind closeValue) = (b3, none) := f3
      rw [Step.bind_none f5] at f3
      exact Step.run_none f3 _ _
    · rw [if_neg (by decide), if_neg (by decide), if_pos rfl]
      have f3 : b2.indent.bind (fun b => (b.put [34, 78, 85, 76, 76, 34, 58, 116, 114, 117, 101] "writing NULL type").bind closeValue) = (b3, none) := f3
      unfold onNull
      rw [hag]
      simp only [ne_eq, not_true_eq_false, if_false, h2, ignoring, act]
      exact Step.run_none f3 _ _
  refine ⟨s2, b4, ?_, ?_, h3, h4, hb4⟩
  · unfold literal atom
    rw [Step.bind_none f1, Step.bind_none f2, Step.bind_none f3, f4]
  · unfold onRootLiteral
    rw [Step.run_none f1, hatom]
    simp only [act]
    exact Step.run_none f4 _ _

/-- A turn at a broken word at the top level. -/
theorem turn_word {opt : Options} {st : St ToDdb} (h : Dead F st.rj) {c : Byte} {t : Bytes} (hr : st.rj.rest = c :: t) {path : List Bytes}
    {k : Nat} (hl : Ctx.of st.pool = ⟨nameTop :: path, k⟩) (hb : Well sound st.baton) :
    ∃ st', literal (wordOf c) st.baton = (st'.baton, none) ∧ turn F (callbacks F) opt .top st = (st', .next .top) ∧ Dead F st'.rj ∧ st'.rj.rest = c :: t ∧
      st'.pool = st.pool ∧ Well sound st'.baton := by
  obtain ⟨s1, _, _, h1, hc, _, _⟩ := h.calls hr
  have hm : Dead F s1 ∧ s1.rest = c :: t := by
    obtain ⟨s1', c', h1', _, hd, hm⟩ := h.peek
    rw [h1] at h1'
    simp only [Prod.mk.injEq] at h1'
    obtain ⟨rfl, _⟩ := h1'
    exact ⟨hd, by rw [hm.rest, hr]; rfl⟩
  obtain ⟨s', b', e1, e2, e3, e4, e5⟩ := onRootLiteral_dead hm.1 hm.2 hb
  refine ⟨⟨s', b', st.pool⟩, e1, ?_, e3, e4, rfl, e5⟩
  rw [turn_top h1]
  have h91 : c ≠ 91 ∧ c ≠ 123 := by rcases hc with ⟨rfl | rfl, _⟩ | ⟨rfl, _⟩ <;> decide
  rw [onValue_eq, if_neg h91.1, if_neg h91.2]
  have hf : (callbacks F).find .atom (.of st.pool) st.baton = (st.baton, some (onRootLiteral F)) := by
    simp only [callbacks, find, hl, if_true]
  unfold callAction
  simp only [hf, e2]

/-- What is written at a broken word in `n` turns. -/
theorem mainLoop_word {opt : Options} (hse : opt.stopEarly = false) {c : Byte} {t : Bytes} {path : List Bytes} {k : Nat} : ∀ (n : Nat) (pr : Bool) (st : St ToDdb),
    Dead F st.rj → st.rj.rest = c :: t → Ctx.of st.pool = ⟨nameTop :: path, k⟩ → Well sound st.baton →
    (mainLoop F (callbacks F) opt n pr .top st).2 = .diverge ∧
    Docs.scan guarded R (nameTop :: path) (List.replicate n ([], .atom (wordOf c))) st.baton = .done (mainLoop F (callbacks F) opt n pr .top st).1.baton := by
  intro n
  induction n with
  | zero => intro pr st _ _ _ _; exact ⟨rfl, rfl⟩
  | succ n ih =>
    intro pr st h hr hl hb
    obtain ⟨st', e1, e2, e3, e4, e5, e6⟩ := turn_word (opt := opt) h hr hl hb
    unfold mainLoop
    rw [if_neg (by simp [hse]), e2]
    obtain ⟨i1, i2⟩ := ih true st' e3 e4 (by rw [e5]; exact hl) e6
    refine ⟨i1, ?_⟩
    have : Val.scan guarded R (nameTop :: path) (.atom (wordOf c)) st.baton = .done st'.baton := by
      simp only [Val.scan]
      refine around_consumed ?_
      rw [guardH_start hb]
      simp only [handler, if_true, Val.text, e1, op_mk]
    simp only [List.replicate_succ, Docs.scan, this, Out.bind, i2]

/-- More turns do not change a result. -/
theorem mainLoop_more {β : Type} {cb : Callbacks β} {opt : Options} : ∀ (n : Nat) (pr : Bool) (pos : Pos) (st : St β),
    (mainLoop F cb opt n pr pos st).2 ≠ .diverge → ∀ m, mainLoop F cb opt (n + m) pr pos st = mainLoop F cb opt n pr pos st := by
  intro n
  induction n with
  | zero => intro pr pos st h; exact absurd rfl h
  | succ n ih =>
    intro pr pos st h m
    rw [show n + 1 + m = (n + m) + 1 by omega]
    unfold mainLoop at h ⊢
    split
    · rfl
    · rename_i hc
      rw [if_neg hc] at h
      revert h
      rcases turn F cb opt pos st with ⟨st', p | r⟩
      · exact fun h => ih true p st' h m
      · exact fun _ => rfl

/-! ### The documents before the broken word -/

theorem Well.spell {b : ToDdb} (hb : Well sound b) (tok : Bytes) : ∃ b', b.spell tok = (b', none) ∧ Well sound b' := by
  unfold ToDdb.spell
  split
  · obtain ⟨b1, e1, h1⟩ := Fine.well (b := b) (x := b.indent.bind (put [34, 83, 34, 58, 34] "writing S type opening")) ((fine_indent b).bind (fine_put _ _)) hb
    rw [Step.bind_none e1]
    refine Fine.well ((fine_flushLong _).bind fun b => (fine_put _ _ b).bind fine_closeValue) ?_
    have := well_iff.1 h1
    exact well_iff.2 ⟨rfl, this.2.1, this.2.2⟩
  · split
    · exact ((fine_indent b).bind fun b => (fine_put _ _ b).bind fine_closeValue).well hb
    · split
      · exact ((fine_indent b).bind fun b => (fine_put _ _ b).bind fine_closeValue).well hb
      · split
        · exact ((fine_indent b).bind fun b => (fine_put _ _ b).bind fine_closeValue).well hb
        · exact ((fine_indent b).bind fun b => (fine_put _ _ b).bind fun b => (fine_put _ _ b).bind fun b => (fine_put _ _ b).bind fine_closeValue).well hb

theorem Well.atom {b : ToDdb} (hb : Well sound b) (tok : Bytes) : ∃ b', b.atom tok = (b', none) ∧ Well sound b' := by
  obtain ⟨b1, e1, h1⟩ := (fine_writeComma b).well hb
  unfold ToDdb.atom
  rw [Step.bind_none e1]
  exact h1.spell tok

theorem Well.literal {b : ToDdb} (hb : Well sound b) (tok : Bytes) : ∃ b', b.literal tok = (b', none) ∧ Well sound b' := by
  obtain ⟨b1, e1, h1⟩ := Fine.well (b := b) (x := (b.put [123] "writing root literal opening brace").bind inc) ((fine_put _ _ b).bind fine_inc) hb
  obtain ⟨b2, e2, h2⟩ := h1.atom tok
  unfold ToDdb.literal
  rw [Step.bind_none e1, Step.bind_none e2]
  exact ((fine_put _ _ b2).bind (fine_setComma false)).well h2

/-- With a writer that never fails no callback answers with an error. -/
theorem Well.start {b : ToDdb} (hb : Well sound b) (p : Pseudo) (path : List Bytes) (v : Val) :
    ∃ b' o, handler.start p path v b = (b', o) ∧ Well sound b' ∧ (o = .none ∨ o = .valueIsConsumed) := by
  have key : ∀ {x : Step} (o : StreamOp), (∃ b', x = (b', none) ∧ Well sound b') → (o = .none ∨ o = .valueIsConsumed) →
      ∃ b' o', x.op o = (b', o') ∧ Well sound b' ∧ (o' = .none ∨ o' = .valueIsConsumed) := by
    rintro _ o ⟨b', rfl, h⟩ ho
    exact ⟨b', o, rfl, h, ho⟩
  have two : ∀ {k : ToDdb → Step}, (∀ b, Well sound b → ∃ b', k b = (b', none) ∧ Well sound b') → ∃ b', b.elementBegin.bind k = (b', none) ∧ Well sound b' := by
    intro k hk
    obtain ⟨b1, e1, h1⟩ := (fine_elementBegin b).well hb
    rw [Step.bind_none e1]
    exact hk b1 h1
  cases path with
  | nil =>
    cases p with
    | atom => exact key _ (hb.atom _) (.inr rfl)
    | array => exact key _ ((fine_arrayBegin b).well hb) (.inl rfl)
    | object => exact ⟨b, _, rfl, hb, .inl rfl⟩
    | none => exact ⟨b, _, rfl, hb, .inl rfl⟩
  | cons parent path =>
    simp only [handler]
    split
    · cases p with
      | atom => exact key _ (hb.literal _) (.inr rfl)
      | array => exact key _ ((fine_rootArray b).well hb) (.inl rfl)
      | object => exact key _ ((fine_rootObjectBegin b).well hb) (.inl rfl)
      | none => exact ⟨b, _, rfl, hb, .inl rfl⟩
    · cases p with
      | none =>
        have := well_iff.1 hb
        exact key _ ((fine_fieldKey _ (by simp)).well (well_iff.2 ⟨this.1, this.2.1, this.2.2⟩)) (.inl rfl)
      | atom =>
        refine key _ ?_ (.inr rfl)
        split
        · exact two fun b h => h.atom _
        · exact hb.atom _
      | array =>
        refine key _ ?_ (.inl rfl)
        split
        · exact two fun b h => (fine_arrayBegin b).well h
        · exact (fine_arrayBegin b).well hb
      | object =>
        refine key _ ?_ (.inl rfl)
        split
        · exact two fun b h => (fine_objectBegin b).well h
        · exact (fine_objectBegin b).well hb

theorem Well.finish {b : ToDdb} (hb : Well sound b) (p : Pseudo) (path : List Bytes) :
    ∃ b', handler.finish p path b = (b', none) ∧ Well sound b' := by
  cases path with
  | nil => exact ⟨b, rfl, hb⟩
  | cons parent path =>
    simp only [handler]
    split
    · cases p with
      | atom => exact ⟨b, rfl, hb⟩
      | none => exact ⟨b, rfl, hb⟩
      | array => exact (fine_rootArrayEnd b).well hb
      | object => exact (fine_rootObjectEnd b).well hb
    · cases p with
      | atom => exact ⟨b, rfl, hb⟩
      | none => exact ⟨b, rfl, hb⟩
      | array => exact (fine_arrayEnd b).well hb
      | object => exact (fine_objectEnd b).well hb

theorem Well.around {p : Pseudo} {path : List Bytes} {v : Val} {inner : ToDdb → Out ToDdb}
    (h : ∀ b, Well sound b → ∃ b', inner b = .done b' ∧ Well sound b') {b : ToDdb} (hb : Well sound b) :
    ∃ b', guarded.around p path v inner b = .done b' ∧ Well sound b' := by
  obtain ⟨b1, o, e, h1, rfl | rfl⟩ := hb.start p path v
  · rw [around_none (by rw [guardH_start hb]; exact e)]
    exact h b1 h1
  · exact ⟨b1, around_consumed (by rw [guardH_start hb]; exact e), h1⟩

theorem Well.end {b : ToDdb} (hb : Well sound b) (p : Pseudo) (path : List Bytes) : ∃ b', guarded.end p path b = .done b' ∧ Well sound b' := by
  obtain ⟨b1, e, h1⟩ := hb.finish p path
  refine ⟨b1, ?_, h1⟩
  unfold Handler.end
  rw [guardH_finish hb, e]

mutual
theorem val_done : ∀ (v : Val) (path : List Bytes), v.Fit R path → ∀ b, Well sound b → ∃ b', v.scan guarded R path b = .done b' ∧ Well sound b'
  | .atom tok, path, _, b, hb => Well.around (fun b h => ⟨b, rfl, h⟩) hb
  | .arr w items, path, hf, b, hb => by
    refine Well.around (fun b h => ?_) hb
    rw [if_pos hf.1]
    obtain ⟨b1, e1, h1⟩ := items_done items (nameArray :: path) hf.2 b h
    rw [e1]
    exact h1.end _ _
  | .obj w members, path, hf, b, hb => by
    refine Well.around (fun b h => ?_) hb
    obtain ⟨b1, e1, h1⟩ := members_done members path hf b h
    rw [e1]
    exact h1.end _ _
theorem items_done : ∀ (v : Items) (path : List Bytes), v.Fit R path → ∀ b, Well sound b → ∃ b', v.scan guarded R path b = .done b' ∧ Well sound b'
  | .nil, _, _, b, hb => ⟨b, rfl, hb⟩
  | .cons _ v _ more, path, hf, b, hb => by
    obtain ⟨b1, e1, h1⟩ := val_done v path hf.1 b hb
    simp only [Items.scan, e1]
    exact items_done more path hf.2 b1 h1
theorem members_done : ∀ (v : Members) (path : List Bytes), v.Fit R path → ∀ b, Well sound b → ∃ b', v.scan guarded R path b = .done b' ∧ Well sound b'
  | .nil, _, _, b, hb => ⟨b, rfl, hb⟩
  | .cons _ k _ _ v _ more, path, hf, b, hb => by
    simp only [Members.scan]
    rw [if_pos hf.1]
    obtain ⟨b1, e1, h1⟩ := Well.around (p := .none) (path := k :: path) (v := v) (fun b h => val_done v (k :: path) hf.2.1 b h) hb
    obtain ⟨b2, e2, h2⟩ := h1.end .none (k :: path)
    rw [e1]
    simp only [Out.bind]
    rw [e2]
    exact members_done more path hf.2.2 b2 h2
end

theorem docs_done : ∀ (ds : Docs) (path : List Bytes), Docs.Fit R path ds → ∀ b, Well sound b → ∃ b', Docs.scan guarded R path ds b = .done b' ∧ Well sound b'
  | [], _, _, b, hb => ⟨b, rfl, hb⟩
  | (_, v) :: ds, path, hf, b, hb => by
    obtain ⟨b1, e1, h1⟩ := val_done v path hf.1 b hb
    simp only [Docs.scan, e1]
    exact docs_done ds path hf.2 b1 h1

/-- Each document meets the rules, and no number runs into what follows it; what is behind the documents can be anything. -/
def Precede (Rs : Rules) : Docs → Bytes → Prop
  | [], _ => True
  | (b, v) :: ds, x => Spaces b ∧ v.Meets Rs ∧ v.HeadMeets Rs b ∧ Ends v (Docs.text ds x) ∧ Precede Rs ds x

/-- The documents in front of `x`. -/
theorem docs_reach {β : Type} {cb : Callbacks β} {H : Handler β} {M : Mode} {L : Nat} {opt : Options} (hI : Implements cb H (Inv M L F) (rules M L))
    (hopt : opt.stopEarly = false) (x nm : Bytes) (l : List (Pos × Bytes)) :
    ∀ (ds : Docs) (pr : Bool) (st : St β), Inv M L F st.rj → Ready st.rj → Holds st.pool R ((.top, nm) :: l) →
      Precede (rules M L) ds x → st.rj.rest = Docs.text ds x → ∀ b, Docs.scan H R (nm :: names l) ds st.baton = .done b →
      ∃ st' k pr', st'.baton = b ∧ Inv M L F st'.rj ∧ Holds st'.pool R ((.top, nm) :: l) ∧ st'.rj.rest = x ∧
        ∀ n, mainLoop F cb opt (n + k) pr .top st = mainLoop F cb opt n pr' .top st' := by
  intro ds
  induction ds with
  | nil =>
    intro pr st hi _ hst _ hr b hb
    simp only [Docs.scan, Out.done.injEq] at hb
    exact ⟨st, 0, pr, hb, hi, hst, hr, fun n => rfl⟩
  | cons d ds ih =>
    rcases d with ⟨b, v⟩
    intro pr st hi hrd hst hm hr b1 hb1
    obtain ⟨hb, hv, hh, he, hm⟩ := hm
    have hdoc := doc_run (opt := opt) (R := R) hI hi hst hb hv hh he hrd hr
    simp only [Docs.scan] at hb1
    cases hsc : v.scan H R (nm :: names l) st.baton with
    | stop b' f => rw [hsc] at hb1; cases hb1
    | done b' =>
      rw [hsc] at hdoc hb1
      obtain ⟨st', k, h1, ⟨hi', hm', hst', hj'⟩, hk, h3⟩ := hdoc.done_run
      have hr' : st'.rj.rest = Docs.text ds x := by
        rw [hm'.rest, hr]
        simp only [Docs.text]
        rw [← List.append_assoc, ← List.length_append, List.drop_left]
      obtain ⟨st2, k2, pr2, i1, i2, i3, i4, i5⟩ := ih true st' hi' (fun h0 => absurd h0 (Nat.ne_of_gt hj')) hst' hm hr' b1 (by rw [h1]; exact hb1)
      refine ⟨st2, k2 + k + 1, pr2, i1, i2, i3, i4, fun n => ?_⟩
      rw [show n + (k2 + k + 1) = (n + k2 + k) + 1 by omega, mainLoop_go (by simp [hopt]), h3 _ (by omega), show n + k2 + k - k = n + k2 by omega, i5]

/-- In front of a broken word there can be space. -/
theorem mainLoop_broken {opt : Options} (hse : opt.stopEarly = false) {ws : Bytes} {c : Byte} {t : Bytes} {path : List Bytes} {k : Nat} (n : Nat) (pr : Bool)
    (st : St ToDdb) (hu : Usable F st.rj) (hcl : st.rj.b.reader.Clean) (hws : Spaces ws) (hr : st.rj.rest = ws ++ c :: t) (hx : Wordless (c :: t))
    (hst : Ctx.of st.pool = ⟨nameTop :: path, k⟩) (hb : Well sound st.baton) :
    (mainLoop F (callbacks F) opt n pr .top st).2 = .diverge ∧
    Docs.scan guarded R (nameTop :: path) (List.replicate n ([], .atom (wordOf c))) st.baton = .done (mainLoop F (callbacks F) opt n pr .top st).1.baton := by
  have hc : c = 116 ∨ c = 102 ∨ c = 110 := by
    obtain ⟨c', t', e, h, _⟩ := hx
    injection e with e1 _
    rw [e1]; exact h
  have hfu := hu.fuel
  unfold enoughFuel at hfu
  obtain ⟨s1, e1, hm⟩ := RJ.peek_complete (fuel := F) hu.sync hcl (by omega) (by have := hu.len; omega) hr ((ws_iff _).mpr hws) (by
    rcases hc with rfl | rfl | rfl <;> decide)
  have hr1 : s1.rest = c :: t := by rw [hm.rest, hr, List.drop_left]
  have hd : Dead F s1 := ⟨hu.moved hm, hm.clean hcl, by rw [hr1]; exact hx⟩
  have same : turn F (callbacks F) opt .top st = turn F (callbacks F) opt .top { st with rj := s1 } := by
    rw [turn_top e1, turn_top (st := { st with rj := s1 }) (RJ.peek_again e1)]
  have key := mainLoop_word (R := R) (opt := opt) hse n pr { st with rj := s1 } hd hr1 hst hb
  cases n with
  | zero => exact ⟨rfl, rfl⟩
  | succ n =>
    unfold mainLoop at key ⊢
    rw [if_neg (by simp [hse])] at key ⊢
    rw [same]
    exact key

theorem scan_append (H : Handler ToDdb) (path : List Bytes) : ∀ (ds ds' : Docs) (b b' : ToDdb), Docs.scan H R path ds b = .done b' →
    Docs.scan H R path (ds ++ ds') b = Docs.scan H R path ds' b'
  | [], ds', b, b', h => by simp only [Docs.scan, Out.done.injEq] at h; rw [h]; rfl
  | (_, v) :: ds, ds', b, b', h => by
    simp only [Docs.scan, List.cons_append] at h ⊢
    cases hv : v.scan H R path b with
    | stop b1 f => rw [hv] at h; cases h
    | done b1 => rw [hv] at h; exact scan_append H path ds ds' b1 b' h

theorem calm_cons {b : Bytes} {v : Val} {ds : Docs} :
    Calm ((b, v) :: ds) ↔ (∀ b' tok r, ds = (b', .atom tok) :: r → compound v = false) ∧ Calm ds := by
  constructor
  · intro h
    exact ⟨fun b' tok r e => h [] b v b' tok r (by rw [e]; rfl), fun l b1 v1 b' tok r e => h ((b, v) :: l) b1 v1 b' tok r (by rw [e]; rfl)⟩
  · rintro ⟨h1, h2⟩ l b1 v1 b' tok r e
    cases l with
    | nil => injection e with e1 e2; injection e1 with _ e3; rw [← e3]; exact h1 b' tok r e2
    | cons d l => injection e with _ e2; exact h2 l b1 v1 b' tok r e2

theorem calm_replicate (tok : Bytes) : ∀ (ds : Docs) (n : Nat), Calm (ds ++ [([], .atom tok)]) → Calm (ds ++ List.replicate n ([], .atom tok))
  | [], n, _ => by
    induction n with
    | zero => intro l b v b' tok r e; simp at e
    | succ n ih => exact calm_cons.2 ⟨fun _ _ _ _ => rfl, ih⟩
  | (b, v) :: ds, n, h => by
    obtain ⟨h1, h2⟩ := calm_cons.1 h
    refine calm_cons.2 ⟨fun b' tok' r e => ?_, calm_replicate tok ds n h2⟩
    cases ds with
    | nil => exact h1 _ _ [] rfl
    | cons d ds =>
      injection e with e1 _
      exact h1 b' tok' (ds ++ [([], .atom tok)]) (by rw [← e1]; rfl)

theorem fit_replicate (path : List Bytes) (tok : Bytes) (n : Nat) : ∀ (ds : Docs), Docs.Fit R path ds → Docs.Fit R path (ds ++ List.replicate n ([], .atom tok))
  | [], _ => by
    induction n with
    | zero => trivial
    | succ n ih => exact ⟨trivial, ih⟩
  | (_, v) :: ds, h => ⟨h.1, fit_replicate path tok n ds h.2⟩

theorem cut_precede {M : Mode} {L : Nat} : ∀ (ds : Docs) (x : Bytes), Precede (rules M L) ds x → (∀ d ∈ ds, Atoms Short d.2) → ∀ d ∈ ds, Atoms Cut d.2
  | [], _, _, _, d, hd => by cases hd
  | (b, v) :: ds, tail, h, hs, d, hd => by
    rcases List.mem_cons.1 hd with rfl | hd
    · exact cut_of v h.2.1 (hs (b, v) (by simp))
    · exact cut_precede ds tail h.2.2.2.2 (fun d hd => hs d (by simp [hd])) d hd

/-- With the guard the loop is the same. -/
theorem guard_loop {β : Type} {K : β → Prop} {cb : Callbacks β} {Q : String → RJ → β → Prop} (h : Keeps cb K Q) (opt : Options) (n : Nat) (pr : Bool) (pos : Pos)
    (st : St β) (hK : K st.baton) : mainLoop F (guardCb K cb) opt n pr pos st = mainLoop F cb opt n pr pos st := by
  obtain ⟨g, e1, e2⟩ := mainLoop_same (guard_sim h) F opt n pr pos st.rj st.baton st.baton st.pool ⟨rfl, hK⟩
  rw [show (⟨st.rj, st.baton, st.pool⟩ : St β) = st from rfl] at e1 e2
  rw [e1]
  rcases hs : mainLoop F cb opt n pr pos st with ⟨⟨rj, b, p⟩, r⟩
  rw [hs] at e2
  have : b = g := by
    rcases e2 with ⟨⟨h, _⟩, _⟩ | ⟨_, _, h⟩ <;> exact h
  rw [this]

/-- Documents, and then a broken word. -/
theorem broken_run (M : Mode) (L : Nat) (reader : Reader) (rb cb : Bytes) (out : Bytes) (pretty unbuffered item : Bool) (ds : Docs) (ws : Bytes) (c : Byte) (t : Bytes)
    (hi : Inv M L F (.new reader rb)) (hcb : 141 ≤ cb.length) (hr : reader.pending = Docs.text ds (ws ++ c :: t)) (hm : Precede (rules M L) ds (ws ++ c :: t))
    (hws : Spaces ws) (hx : Wordless (c :: t)) (hf : Docs.Fit ⟨cb.length - 136, 34, 34⟩ [nameTop] ds) :
    (∀ n, (convertNormalToDdb n F reader ⟨⟨out, []⟩, []⟩ rb cb pretty unbuffered item).2 = .diverge) ∧
    ∃ k, ∀ n, Docs.scan guarded ⟨cb.length - 136, 34, 34⟩ [nameTop] (ds ++ List.replicate n ([], .atom (wordOf c)))
      (.new ⟨⟨out, []⟩, []⟩ item pretty unbuffered) = .done (convertNormalToDdb (n + k) F reader ⟨⟨out, []⟩, []⟩ rb cb pretty unbuffered item).1 := by
  obtain ⟨pool, hp, hh⟩ := pool_new cb 34 (by decide) (by decide) (by omega)
  have hw : Well sound (.new ⟨⟨out, []⟩, []⟩ item pretty unbuffered) := well_iff.2 ⟨rfl, rfl, rfl⟩
  obtain ⟨p', r, e, hpl⟩ := hh.push .top nameTop ⟨by simp [names], by simp [names, usedNames, nameTop]; omega, by decide, by decide, by simp [names]⟩
  obtain ⟨b, hd, hb⟩ := docs_done (R := ⟨cb.length - 136, 34, 34⟩) ds [nameTop] hf _ hw
  obtain ⟨st', k, pr', h1, h2, h3, h4, h5⟩ := docs_reach (opt := ⟨[], false⟩) (guard_implements (implements (M := M) (L := L) (F := F))) rfl (ws ++ c :: t) nameTop [] ds false
    ⟨.new reader rb, .new ⟨⟨out, []⟩, []⟩ item pretty unbuffered, p'⟩ hi (ready_new _ _) hpl hm (by rw [← hr, rest_new]) b hd
  have hrun : ∀ n, mainLoop F (callbacks F) ⟨[], false⟩ (n + k) false .top ⟨.new reader rb, .new ⟨⟨out, []⟩, []⟩ item pretty unbuffered, p'⟩ =
      mainLoop F (callbacks F) ⟨[], false⟩ n pr' .top st' := by
    intro n
    rw [← guard_loop (callbacks_keep F sound) _ _ _ _ _ hw, ← guard_loop (callbacks_keep F sound) _ _ _ _ _ (by rw [h1]; exact hb)]
    exact h5 n
  have hword : ∀ n, _ := fun n => mainLoop_broken (F := F) (R := ⟨cb.length - 136, 34, 34⟩) (opt := ⟨[], false⟩) rfl n pr' st' ⟨h2.sync, h2.eight, h2.fuel⟩ h2.clean hws h4 hx h3.ctx (by rw [h1]; exact hb)
  have hdiv : ∀ n, (mainLoop F (callbacks F) ⟨[], false⟩ n false .top ⟨.new reader rb, .new ⟨⟨out, []⟩, []⟩ item pretty unbuffered, p'⟩).2 = .diverge := by
    intro n
    by_cases h : (mainLoop F (callbacks F) ⟨[], false⟩ n false .top ⟨.new reader rb, .new ⟨⟨out, []⟩, []⟩ item pretty unbuffered, p'⟩).2 = .diverge
    · exact h
    · rw [← mainLoop_more n false .top _ h k, hrun]
      exact (hword n).1
  have hconv : ∀ n, convertNormalToDdb n F reader ⟨⟨out, []⟩, []⟩ rb cb pretty unbuffered item =
      ((mainLoop F (callbacks F) ⟨[], false⟩ n false .top ⟨.new reader rb, .new ⟨⟨out, []⟩, []⟩ item pretty unbuffered, p'⟩).1.baton, .diverge) := by
    intro n
    have := hdiv n
    unfold convertNormalToDdb
    simp only [hp]
    unfold scan
    simp only [e]
    revert this
    rcases mainLoop F (callbacks F) ⟨[], false⟩ n false .top ⟨.new reader rb, .new ⟨⟨out, []⟩, []⟩ item pretty unbuffered, p'⟩ with ⟨st, u | e | _ | _⟩ <;> intro h
    · cases h
    · cases h
    · cases h
    · rfl
  refine ⟨fun n => by rw [hconv], k, fun n => ?_⟩
  rw [hconv, hrun, scan_append _ _ _ _ _ _ hd, ← h1]
  exact (hword n).2

/-- `n` turns, if all of them go on. -/
def go (F : Nat) : Nat → Pos → St ToDdb → Option (Pos × St ToDdb)
  | 0, pos, st => some (pos, st)
  | n + 1, pos, st =>
    match turn F (callbacks F) ⟨[], false⟩ pos st with
    | (st', .next pos') => go F n pos' st'
    | _ => none

theorem mainLoop_turns : ∀ (k : Nat) (pr : Bool) (pos pos' : Pos) (st st' : St ToDdb), go F k pos st = some (pos', st') →
    ∃ pr', ∀ n, mainLoop F (callbacks F) ⟨[], false⟩ (n + k) pr pos st = mainLoop F (callbacks F) ⟨[], false⟩ n pr' pos' st'
  | 0, pr, pos, pos', st, st', h => by
    simp only [go, Option.some.injEq, Prod.mk.injEq] at h
    exact ⟨pr, fun n => by rw [h.1, h.2]; rfl⟩
  | k + 1, pr, pos, pos', st, st', h => by
    simp only [go] at h
    rcases hx : turn F (callbacks F) ⟨[], false⟩ pos st with ⟨st1, p | r⟩ <;> rw [hx] at h
    · obtain ⟨pr', hp⟩ := mainLoop_turns k true p pos' st1 st' h
      refine ⟨pr', fun n => ?_⟩
      rw [show n + (k + 1) = (n + k) + 1 by omega]
      conv => lhs; unfold mainLoop
      rw [if_neg (by simp), hx]
      exact hp n
    · cases h

end ToDdb

/-- In a text of JSON documents there is no broken word behind a document. -/
theorem Docs.no_word {strict : Prop} {L : Nat} {tail ws x : Bytes} (hst : strict) (hx : Wordless x) : ∀ {ds ds' : Docs}, Docs.Json ds tail →
    (∀ d ∈ ds, d.2.Short L) → Docs.Loose strict ds' ws → Docs.Parted L ds' (ws ++ x) → Docs.text ds tail ≠ Docs.text ds' (ws ++ x)
  | [], [], h, _, _, _, e => by
    obtain ⟨c, t, rfl, hc, _⟩ := hx
    have := h c (by rw [show tail = ws ++ c :: t from e]; simp)
    unfold Space at this
    rcases hc with rfl | rfl | rfl <;> revert this <;> decide
  | [], (b, v) :: ds', h, _, h', _, e => by
    obtain ⟨c, t, ev, st⟩ := h'.2.1.start
    have : c ∈ tail := by
      rw [show tail = b ++ (v.text ++ Docs.text ds' (ws ++ x)) from e, ev]; simp
    exact absurd (.inl (h c this)) st.1
  | (b, v) :: ds, [], h, _, h', _, e => by
    obtain ⟨c, t, rfl, hc, hno⟩ := hx
    obtain ⟨c', t', ev, st⟩ := (Val.Meets.loose (strict := True) h.2.1).1.start
    obtain ⟨_, k1, k2⟩ := blank_split (blank_spaces h.1) (show Blank ws from h') st.1
      (solid_of (by rcases hc with rfl | rfl | rfl <;> decide) : Solid c)
      (show b ++ c' :: (t' ++ Docs.text ds tail) = ws ++ c :: t from by simpa [Docs.text, ev] using e)
    subst k1
    refine hno ?_
    rw [← k2]
    cases v with
    | arr w items => simp only [Val.text, List.cons.injEq] at ev; rw [← ev.1] at hc; exact absurd hc (by decide)
    | obj w members => simp only [Val.text, List.cons.injEq] at ev; rw [← ev.1] at hc; exact absurd hc (by decide)
    | atom tok =>
      have hv := h.2.1
      simp only [Val.text] at ev
      rw [show c' :: (t' ++ Docs.text ds tail) = tok ++ Docs.text ds tail by rw [ev]; rfl]
      cases (show IsAtom _ _ tok from hv) with
      | null => injection ev with e1 _; subst e1; exact List.prefix_append _ _
      | true => injection ev with e1 _; subst e1; exact List.prefix_append _ _
      | false => injection ev with e1 _; subst e1; exact List.prefix_append _ _
      | string => injection ev with e1 _; rw [← e1] at hc; exact absurd hc (by decide)
      | number _ hn _ =>
        subst ev
        exact (number_not (x := []) (x' := []) hn (by rcases hc with rfl | rfl | rfl <;> decide) rfl).elim
  | (b, v) :: ds, (b', v') :: ds', h, hs, h', hp, e => by
    obtain ⟨_, k2⟩ := Val.unique_top h.2.1 h'.2.1 (.inl hst) h.2.2.1 hp.1 (.inl (hs (b, v) (by simp))) (blank_spaces h.1) h'.1 e
    exact Docs.no_word hst hx h.2.2.2 (fun d hd => hs d (by simp [hd])) h'.2.2 hp.2 k2.symm

/-- **C82, partial.** Whatever the input is, however it is cut, and whatever the writer does: `convert_normal_to_ddb` returns `Ok` or an error after at
most `2 n + 3` turns, where `n` is the length of the input; or the input is a stream of documents and then, behind space, something that begins like
`true`, `false` or `null` and is not it. So it never panics, and this is the only way to run for ever.

The full statement has no condition on the reader; failures of the reader in front of such a word are C64. Whether it does run for ever on such an
input is `C82_endless`: there the documents are JSON, here they are what `scan` lets through (`Docs.Loose`). -/
theorem C82_returns_partial (F : Nat) (reader : Reader) (d : Dest) (rb cb : Bytes) (pretty unbuffered item : Bool) (hu : Usable F (.new reader rb))
    (hcl : reader.Clean) (n : Nat) (hn : 2 * reader.pending.length + 3 ≤ n) :
    (convertNormalToDdb n F reader d rb cb pretty unbuffered item).2 = .ok ∨
    (∃ e position, (convertNormalToDdb n F reader d rb cb pretty unbuffered item).2 = .err e position) ∨
    ∃ ds ws x, reader.pending = Docs.text ds (ws ++ x) ∧ Docs.Loose (Harmless (.new reader rb)) ds ws ∧ Docs.Parted rb.length ds (ws ++ x) ∧ Wordless x := by
  by_cases herr : ∃ e p, (convertNormalToDdb n F reader d rb cb pretty unbuffered item).2 = .err e p
  · exact .inr (.inl herr)
  have hp := (C74_to_ddb_partial n F reader d rb cb pretty unbuffered item).1 (by intro e p h; exact herr ⟨e, p, h⟩)
  have hres : (convertNormalToDdb n F reader d rb cb pretty unbuffered item).2 = (convertNormalToDdb n F reader d.perfect rb cb pretty false item).2 := by
    rw [hp]
  rw [hres] at herr ⊢
  clear hp hres
  rcases pool_returns cb 34 with ⟨pool, R, hp, hl⟩ | ⟨e, hp⟩
  · unfold convertNormalToDdb at herr ⊢
    simp only [hp] at herr ⊢
    unfold scan at herr ⊢
    simp only at herr ⊢
    by_cases hfit : R.Fits (names []) nameTop
    · obtain ⟨p', r, e, hpl⟩ := hl.push .top nameTop hfit
      rw [e] at herr ⊢
      simp only at herr ⊢
      have h := ToDdb.mainLoop_halts (F := F) (strict := ⟨Harmless (.new reader rb), rb.length⟩) n false .top [(.top, nameTop)]
        ⟨.new reader rb, .new d.perfect item pretty false, p'⟩ ⟨⟨hu, id, rfl⟩, hpl, .top _ _, ⟨_, _, rfl⟩, by simp⟩ (by intro h; simp at h) hcl
        (ToDdb.well_iff.2 ⟨rfl, rfl, rfl⟩) (by
          have := cost_le .top (⟨.new reader rb, .new d.perfect item pretty false, p'⟩ : St ToDdb)
          simp only [rest_new] at this
          omega)
      rcases h with ⟨h1, h2⟩ | ⟨b', x, ds, ws, h1, h2, h3, _, h4⟩
      · left
        rcases hx : mainLoop F (ToDdb.callbacks F) ⟨[], false⟩ n false .top ⟨.new reader rb, .new d.perfect item pretty false, p'⟩ with ⟨st, u | e | _ | _⟩
        · rfl
        · rw [hx] at herr
          obtain ⟨_, _, h3⟩ := report_err st.baton.lastError st.rj.currentIndex e
          exact absurd ⟨_, _, h3⟩ herr
        · rw [hx] at h1; exact absurd rfl h1
        · rw [hx] at h2; exact absurd rfl h2
      · rw [rest_new] at h1
        exact .inr (.inr ⟨ds, ws, x, h1, h2, h3, h4⟩)
    · exfalso
      obtain ⟨p', er, e, _⟩ := hl.push_full .top nameTop hfit
      rw [e] at herr
      obtain ⟨_, _, h3⟩ := report_err (ToDdb.new d.perfect item pretty false).lastError (RJ.new reader rb).currentIndex (.maxNesting (RJ.new reader rb).currentIndex 0)
      exact herr ⟨_, _, h3⟩
  · exfalso
    unfold convertNormalToDdb at herr
    rw [hp] at herr
    exact herr ⟨_, _, rfl⟩

/-- **C82, the other direction**, and with it the negation of "it always returns" for a whole class of inputs: behind any stream of documents that meets
the rules, a broken word at the top level is never left. There is no condition on the keys, on the length of the numbers, on the order of the documents. -/
theorem C82_endless (M : Mode) (L F : Nat) (reader : Reader) (rb cb : Bytes) (out : Bytes) (pretty unbuffered item : Bool) (ds : Docs) (ws x : Bytes)
    (hi : Inv M L F (.new reader rb)) (hcb : 141 ≤ cb.length) (hr : reader.pending = Docs.text ds (ws ++ x)) (hm : ToDdb.Precede (rules M L) ds (ws ++ x))
    (hws : Spaces ws) (hx : Wordless x) (hf : Docs.Fit ⟨cb.length - 136, 34, 34⟩ [nameTop] ds) (n : Nat) :
    (convertNormalToDdb n F reader ⟨⟨out, []⟩, []⟩ rb cb pretty unbuffered item).2 = .diverge := by
  obtain ⟨c, t, rfl, _⟩ := id hx
  exact (ToDdb.broken_run M L reader rb cb out pretty unbuffered item ds ws c t hi hcb hr hm hws hx hf).1 n

/-- **C82, what it writes.** If the documents are ones that are written as they should be (C47), then the output consists of these documents, and after
them the word that the input did not contain, completed, as many times as you wait for. -/
theorem C82_endless_output (M : Mode) (L F : Nat) (reader : Reader) (rb cb : Bytes) (out : Bytes) (pretty unbuffered item : Bool) (ds : Docs) (ws : Bytes)
    (c : Byte) (t : Bytes)
    (hi : Inv M L F (.new reader rb)) (hcb : 141 ≤ cb.length) (hr : reader.pending = Docs.text ds (ws ++ c :: t))
    (hm : ToDdb.Precede (rules M L) ds (ws ++ c :: t)) (hws : Spaces ws) (hx : Wordless (c :: t))
    (hf : Docs.Fit ⟨cb.length - 136, 34, 34⟩ [nameTop] ds) (hk : ∀ d ∈ ds, d.2.Keys Usual) (ha : ∀ d ∈ ds, Atoms Short d.2)
    (hc : Calm (ds ++ [([], .atom (wordOf c))])) :
    ∃ k, ∀ n, (convertNormalToDdb (n + k) F reader ⟨⟨out, []⟩, []⟩ rb cb pretty unbuffered item).1.d.w.out =
      out ++ typedDocs item pretty (ds ++ List.replicate n ([], .atom (wordOf c))) := by
  obtain ⟨_, k, h⟩ := ToDdb.broken_run M L reader rb cb out pretty unbuffered item ds ws c t hi hcb hr hm hws hx hf
  refine ⟨k, fun n => ?_⟩
  have hcut : ToDdb.Cut (wordOf c) := by
    obtain ⟨c', t', e, h, _⟩ := hx
    injection e with e1 _
    subst e1
    rcases h with rfl | rfl | rfl
    · exact ⟨.true, fun _ => by decide⟩
    · exact ⟨.false, fun _ => by decide⟩
    · exact ⟨.null, fun _ => by decide⟩
  obtain ⟨c', f', e⟩ := ToDdb.docs_typed (C := ⟨item, unbuffered, pretty⟩) ⟨cb.length - 136, 34, 34⟩ (ds ++ List.replicate n ([], .atom (wordOf c))) out false none nofun
    (ToDdb.calm_replicate _ ds n hc) (ToDdb.fit_replicate _ _ n ds hf)
    (by
      intro d hd
      rcases List.mem_append.1 hd with h | h
      · exact hk d h
      · rw [List.eq_of_mem_replicate h]; trivial)
    (by
      intro d hd
      rcases List.mem_append.1 hd with h | h
      · exact ToDdb.cut_precede ds _ hm ha d h
      · rw [List.eq_of_mem_replicate h]; exact hcut)
  have h := h n
  rw [show ToDdb.new ⟨⟨out, []⟩, []⟩ item pretty unbuffered = ToDdb.Cfg.st ⟨item, unbuffered, pretty⟩ out false none 0 from rfl, e, Out.done.injEq] at h
  rw [← h]
  rfl

/-- **C82 for JSON, partial.** On a stream of JSON documents, however it is cut, the converter returns. The full statement has no condition on the bytes
and none on the length of the numbers at the top level. Without the first it is false: `C82_json_endless`. -/
theorem C82_json_returns_partial (F : Nat) (reader : Reader) (d : Dest) (rb cb : Bytes) (pretty unbuffered item : Bool) (hu : Usable F (.new reader rb))
    (hcl : reader.Clean) (hh : Harmless (.new reader rb)) (ds : Docs) (tail : Bytes) (hr : reader.pending = Docs.text ds tail) (hj : Docs.Json ds tail)
    (hs : ∀ d ∈ ds, d.2.Short rb.length) (n : Nat) (hn : 2 * reader.pending.length + 3 ≤ n) :
    (convertNormalToDdb n F reader d rb cb pretty unbuffered item).2 = .ok ∨
    ∃ e position, (convertNormalToDdb n F reader d rb cb pretty unbuffered item).2 = .err e position := by
  rcases C82_returns_partial F reader d rb cb pretty unbuffered item hu hcl n hn with h | h | ⟨ds', ws, x, h1, h2, h3, h4⟩
  · exact .inl h
  · exact .inr h
  · exact absurd (hr.symm.trans h1) (Docs.no_word hh h4 hj hs h2 h3)

/-! ## Examples -/

/-- `"x" [1] {"k":null} {} 5 ` and then ` fals`. -/
theorem exStream_precede : ToDdb.Precede (rules wholeMode 8) exStream ([32] ++ [102, 97, 108, 115]) :=
  ⟨spaces_nil, .string [120] raw_x trivial, trivial, fun h => absurd h (not_number_string _),
   spaces_one, ⟨spaces_nil, spaces_nil, .number _ number_one (by decide), spaces_nil, trivial⟩, trivial, trivial,
   spaces_one, ⟨spaces_nil, spaces_nil, ⟨raw_k, by decide⟩, spaces_nil, spaces_nil, .null, trivial, spaces_nil, trivial⟩, trivial, trivial,
   spaces_one, ⟨spaces_nil, trivial⟩, trivial, trivial,
   spaces_one, .number _ number_five (by decide), trivial,
   fun _ => ⟨by intro c hc; simp [Docs.text] at hc; subst hc; unfold Digit; decide, by decide⟩, trivial⟩

def exFals : Reader := whole (Docs.text exStream ([32] ++ [102, 97, 108, 115]))

/-- The hypotheses of `C82_endless` and `C82_endless_output`. -/
example : Inv wholeMode 8 200 (.new exFals (List.replicate 40 0)) ∧ exFals.pending = Docs.text exStream ([32] ++ [102, 97, 108, 115]) ∧
    ToDdb.Precede (rules wholeMode 8) exStream ([32] ++ [102, 97, 108, 115]) ∧ Spaces [32] ∧ Wordless [102, 97, 108, 115] ∧
    Docs.Fit ⟨200 - 136, 34, 34⟩ [nameTop] exStream ∧ (∀ d ∈ exStream, d.2.Keys Usual) ∧ (∀ d ∈ exStream, Atoms Short d.2) ∧
    Calm (exStream ++ [([], .atom (wordOf 102))]) := by
  have hs : ∀ tok : Bytes, tok.length ≤ 32 → Short tok := fun _ h _ => h
  refine ⟨whole_new _ _ 8 200 (by simp [exFals, whole, exStream, Docs.text, Val.text, Reader.OneChunk]) (by decide) (by decide) (by decide) (by decide), by decide +kernel,
    exStream_precede, spaces_one, ⟨102, _, rfl, by decide, by decide⟩,
    ⟨trivial, ⟨by decide, trivial, trivial⟩, ⟨by decide, trivial, trivial⟩, trivial, trivial, trivial⟩, ?_, ?_, ?_⟩
  · intro d hd
    simp only [exStream, List.mem_cons, List.not_mem_nil, or_false] at hd
    rcases hd with rfl | rfl | rfl | rfl | rfl
    · trivial
    · exact ⟨trivial, trivial⟩
    · exact ⟨by rw [usual_iff]; decide, trivial, trivial⟩
    · trivial
    · trivial
  · intro d hd
    simp only [exStream, List.mem_cons, List.not_mem_nil, or_false] at hd
    rcases hd with rfl | rfl | rfl | rfl | rfl
    · exact hs _ (by decide)
    · exact ⟨hs _ (by decide), trivial⟩
    · exact ⟨hs _ (by decide), trivial⟩
    · trivial
    · exact hs _ (by decide)
  · unfold exStream
    simp only [List.cons_append, List.nil_append, ToDdb.calm_cons]
    refine ⟨fun _ _ _ _ => rfl, ?_, ?_, fun _ _ _ _ => rfl, fun _ _ _ _ => rfl, fun _ _ _ e => (by cases e), ?_⟩
    · intro b' tok r e; simp at e
    · intro b' tok r e; simp at e
    · intro l b v b' tok r e; simp at e

/-- What it has written after 20 turns: the documents, and `false` nine times. -/
example : (convertNormalToDdb 20 200 exFals ⟨⟨[], []⟩, []⟩ (List.replicate 40 0) (List.replicate 200 0) false false false).1.d.w.out =
    typedDocs false false (exStream ++ List.replicate 9 ([], .atom (wordOf 102))) := by decide +kernel

/-- The hypotheses of `C82_returns_partial` and `C82_json_returns_partial`: the documents byte by byte. -/
example : Usable 400 (.new exDrops (List.replicate 8 0)) ∧ exDrops.Clean ∧ Harmless (.new exDrops (List.replicate 8 0)) ∧ exDrops.pending = Docs.text exStream [32] ∧
    Docs.Json exStream [32] ∧ (∀ x ∈ exStream, x.2.Short (List.replicate 8 (0 : Byte)).length) :=
  ⟨usable_new _ _ _ (by decide) (by decide +kernel), by simp [exDrops, exStream, Docs.text, Val.text, Members.text, Items.text, Items.textMore,
      Members.textMore, Reader.Clean], .inr (by decide +kernel), by decide +kernel, Docs.Meets.json exStream_meets, exStream_short _ (by decide)⟩

/-! ## A JSON document -/

/-- `["éé","\"] tru"]`, an array of two strings. -/
def exTru : Val := .arr [] (.cons [] (.atom [34, 195, 169, 195, 169, 34]) [] (.cons [] (.atom [34, 92, 34, 93, 32, 116, 114, 117, 34]) [] .nil))

theorem exTru_meets : exTru.Meets .plain := by
  have h0 : Spaces [] := by intro c hc; simp at hc
  have he : RawBody [195, 169, 195, 169] :=
    .char 'é' [195, 169] ⟨by decide, by decide, by decide⟩ (.char 'é' [] ⟨by decide, by decide, by decide⟩ .nil)
  have hq : RawBody [92, 34, 93, 32, 116, 114, 117] :=
    .esc 34 '"' _ (by unfold Escape; decide) (raw_ascii [93, 32, 116, 114, 117] (by decide))
  exact ⟨h0, h0, .string _ he trivial, h0, h0, .string _ hq trivial, h0, trivial⟩

/-- The document in two chunks; the first one ends behind the escaped quote. -/
def exTruReader : Reader := [.data 91 [34, 195, 169, 195, 169, 34, 44, 34, 92, 34], .data 93 [32, 116, 114, 117, 34, 93]]

/-- What is written in the first five turns. -/
def exTruOut : Bytes :=
  [123, 34, 76, 34, 58, 91, 123, 34, 83, 34, 58, 34, 195, 169, 195, 169, 34, 125, 44, 123, 34, 83, 34, 58, 34, 92, 34, 125, 93, 125, 10, 123, 44, 34,
    66, 79, 79, 76, 34, 58, 116, 114, 117, 101, 125, 10]

def exTruRJ : RJ := ⟨⟨[], [116, 114, 117, 34, 93, 114, 117, 34, 93, 92, 34, 0, 0, 0, 0, 0], 5, 13, 0, 13⟩, 5, 0⟩

def exTruStart : Option (Pos × RJ × ToDdb × Ctx) :=
  match U8Pool.new (List.replicate 200 0) 34 with
  | .ok pool =>
    match pool.pushAssoc posLayout [Pos.top.byte] nameTop with
    | (pool, .ok _) =>
      (ToDdb.go 100 5 .top ⟨.new exTruReader (List.replicate 16 0), .new ⟨⟨[], []⟩, []⟩ false false false, pool⟩).map fun x =>
        (x.1, x.2.rj, x.2.baton, Ctx.of x.2.pool)
    | _ => none
  | _ => none

theorem exTruStart_eq : exTruStart = some (.top, exTruRJ, ToDdb.Cfg.st ⟨false, false, false⟩ exTruOut false none 0, ⟨[nameTop], 1⟩) := by decide +kernel

theorem exTru_rows : ∀ (n : Nat), typedDocs false false (List.replicate n ([], .atom (wordOf 116))) = (List.replicate n endlessRow).flatten
  | 0 => rfl
  | n + 1 => by
    simp only [List.replicate_succ, typedDocs, List.flatten_cons, exTru_rows n]
    rw [← List.singleton_append (x := 10), ← List.append_assoc]
    exact congrArg (· ++ _) (by decide +kernel)

theorem exTru_run (n : Nat) :
    (convertNormalToDdb n 100 exTruReader ⟨⟨[], []⟩, []⟩ (List.replicate 16 0) (List.replicate 200 0) false false false).2 = .diverge ∧
    (convertNormalToDdb (n + 5) 100 exTruReader ⟨⟨[], []⟩, []⟩ (List.replicate 16 0) (List.replicate 200 0) false false false).1.d.w.out =
      exTruOut ++ (List.replicate n endlessRow).flatten := by
  have h := exTruStart_eq
  unfold exTruStart at h
  rcases hp : U8Pool.new (List.replicate 200 0) 34 with pool | e | _ <;> rw [hp] at h <;> simp only at h
  · rcases hq : pool.pushAssoc posLayout [Pos.top.byte] nameTop with ⟨pool', u | e | _⟩ <;> rw [hq] at h <;> simp only at h
    · rcases hg : ToDdb.go 100 5 .top ⟨.new exTruReader (List.replicate 16 0), .new ⟨⟨[], []⟩, []⟩ false false false, pool'⟩ with _ | ⟨pos, st⟩ <;> rw [hg] at h
      · cases h
      · simp only [Option.map_some, Option.some.injEq, Prod.mk.injEq] at h
        obtain ⟨rfl, h1, h2, h3⟩ := h
        obtain ⟨pr, hrun⟩ := ToDdb.mainLoop_turns 5 false .top .top _ _ hg
        have hd : ToDdb.Dead 100 st.rj := by
          rw [h1]
          exact ⟨⟨⟨by decide, by decide, by decide⟩, by decide, by unfold enoughFuel; decide⟩, by decide, 116, [114, 117, 34, 93], by decide, by decide, by decide⟩
        have hr : st.rj.rest = 116 :: [114, 117, 34, 93] := by rw [h1]; decide
        have hword := fun n => ToDdb.mainLoop_word (R := ⟨0, 0, 0⟩) (opt := ⟨[], false⟩) rfl n pr st hd hr h3 (by rw [h2]; exact ToDdb.well_iff.2 ⟨rfl, rfl, rfl⟩)
        have hdiv : ∀ n, (mainLoop 100 (ToDdb.callbacks 100) ⟨[], false⟩ n false .top
            ⟨.new exTruReader (List.replicate 16 0), .new ⟨⟨[], []⟩, []⟩ false false false, pool'⟩).2 = .diverge := by
          intro n
          by_cases h : (mainLoop 100 (ToDdb.callbacks 100) ⟨[], false⟩ n false .top
            ⟨.new exTruReader (List.replicate 16 0), .new ⟨⟨[], []⟩, []⟩ false false false, pool'⟩).2 = .diverge
          · exact h
          · rw [← ToDdb.mainLoop_more n false .top _ h 5, hrun]
            exact (hword n).1
        have hconv : ∀ n, convertNormalToDdb n 100 exTruReader ⟨⟨[], []⟩, []⟩ (List.replicate 16 0) (List.replicate 200 0) false false false =
            ((mainLoop 100 (ToDdb.callbacks 100) ⟨[], false⟩ n false .top
              ⟨.new exTruReader (List.replicate 16 0), .new ⟨⟨[], []⟩, []⟩ false false false, pool'⟩).1.baton, .diverge) := by
          intro n
          have := hdiv n
          unfold convertNormalToDdb
          simp only [hp]
          unfold scan
          simp only [hq]
          revert this
          rcases mainLoop 100 (ToDdb.callbacks 100) ⟨[], false⟩ n false .top
            ⟨.new exTruReader (List.replicate 16 0), .new ⟨⟨[], []⟩, []⟩ false false false, pool'⟩ with ⟨st, u | e | _ | _⟩ <;> intro h
          · cases h
          · cases h
          · cases h
          · rfl
        refine ⟨by rw [hconv], ?_⟩
        rw [hconv, hrun]
        have hb := (hword n).2
        obtain ⟨c', f', e⟩ := ToDdb.docs_typed (C := ⟨false, false, false⟩) ⟨0, 0, 0⟩ (List.replicate n ([], .atom (wordOf 116))) exTruOut false none nofun
          (ToDdb.calm_replicate _ [] n (by intro l b v b' tok r e; have := congrArg List.length e; simp at this; omega))
          (ToDdb.fit_replicate _ _ n [] trivial)
          (by intro d hd; rw [List.eq_of_mem_replicate hd]; trivial)
          (by intro d hd; rw [List.eq_of_mem_replicate hd]; exact ⟨.true, fun _ => by decide⟩)
        rw [h2, e, Out.done.injEq] at hb
        rw [← hb, ← exTru_rows]
        rfl
    · cases h
    · cases h
  · cases h
  · cases h

/-- **C82 is false** for JSON without `Harmless`: for the document `["éé","\"] tru"]`, in two chunks, `convert_normal_to_ddb` never returns. The string
ends for it at the escaped quote (C79_half_escape), the array at the bracket in the string, and then it writes `true` for ever, which is nowhere in
the document. -/
theorem C82_json_endless : ∃ reader : Reader, reader.Clean ∧ reader.pending = exTru.text ∧ exTru.Meets .plain ∧
    exTru.text = "[\"éé\",\"\\\"] tru\"]".toUTF8.toList ∧ ∀ n,
    (convertNormalToDdb n 100 reader ⟨⟨[], []⟩, []⟩ (List.replicate 16 0) (List.replicate 200 0) false false false).2 = .diverge ∧
    (convertNormalToDdb (n + 5) 100 reader ⟨⟨[], []⟩, []⟩ (List.replicate 16 0) (List.replicate 200 0) false false false).1.d.w.out =
      "{\"L\":[{\"S\":\"éé\"},{\"S\":\"\\\"}]}\n{,\"BOOL\":true}\n".toUTF8.toList ++ (List.replicate n "{\"BOOL\":true}\n".toUTF8.toList).flatten := by
  refine ⟨exTruReader, by decide, by decide, exTru_meets, by decide +kernel, ?_⟩
  rw [show "{\"BOOL\":true}\n".toUTF8.toList = endlessRow by decide +kernel,
    show "{\"L\":[{\"S\":\"éé\"},{\"S\":\"\\\"}]}\n{,\"BOOL\":true}\n".toUTF8.toList = exTruOut by decide +kernel]
  exact exTru_run

end Verif.Ddb
