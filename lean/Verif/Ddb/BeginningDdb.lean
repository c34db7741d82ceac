import Verif.Ddb.Beginning
import Verif.Ddb.Halting

/-!
# What `convert_normal_to_ddb` makes of the beginning of JSON documents

The action for a literal writes the whole word, and does not notice that the input stops in the middle of it. So the converter is compared
with one that writes the word and returns an error then.
-/

namespace Verif.Ddb

open Verif.U8Pool (Pool)
open Verif.RJiter
open Verif.RJiter.Jiter
open Verif.Scan

namespace ToDdb

variable {F : Nat} {strict : Care} {R : Room} {opt : Options}

/-! ## The converter that writes the word and stops -/

/-- The answer is an error. -/
def stopped (x : (RJ × ToDdb) × Acted) : (RJ × ToDdb) × Acted := (x.1, .op (.error ""))

/-- The matchers of the converter, with actions that stop behind a value that is `lame`. -/
def bite (F : Nat) : Callbacks ToDdb where
  find p c b :=
    match (callbacks F).find p c b with
    | (b', none) => (b', none)
    | (b', some a) => (b', some fun s b => if p = .atom ∧ lame F s = true then stopped (a s b) else a s b)
  findEnd := (callbacks F).findEnd

theorem callAction_bite {p : Pseudo} {st : St ToDdb} (h : p = .atom → lame F st.rj = false) : callAction (bite F) p st = callAction (callbacks F) p st := by
  unfold callAction bite
  simp only
  rcases (callbacks F).find p (.of st.pool) st.baton with ⟨b, _ | a⟩
  · rfl
  · simp only
    rw [if_neg]
    rintro ⟨rfl, h2⟩
    rw [h rfl] at h2
    cases h2

/-- At a value that is `lame` both write the same. -/
theorem callAction_lame {st st' : St ToDdb} {a : After} (h : lame F st.rj = true) (he : callAction (callbacks F) .atom st = (st', a)) (hg : a ≠ .go) :
    ∃ st2 e, callAction (bite F) .atom st = (st2, .leave (.err e)) ∧ st2.baton = st'.baton := by
  revert he
  unfold callAction bite
  simp only
  rcases (callbacks F).find .atom (.of st.pool) st.baton with ⟨b, _ | act⟩
  · intro he
    simp only [Prod.mk.injEq] at he
    exact absurd he.2.symm hg
  · simp only
    rw [if_pos ⟨trivial, h⟩]
    simp only [stopped]
    rcases act st.rj b with ⟨⟨s1, b1⟩, (_ | _ | m) | _ | _⟩ <;> intro he <;> simp only [Prod.mk.injEq] at he <;> obtain ⟨rfl, rfl⟩ := he
    · exact absurd rfl hg
    all_goals exact ⟨_, _, rfl, rfl⟩

theorem endStep_bite (p : Pseudo) (c : Ctx) (st : St ToDdb) (pool : Pool) : endStep (bite F) p c st pool = endStep (callbacks F) p c st pool := rfl

theorem handleKey_bite (begin : Bool) (st : St ToDdb) : handleKey F (bite F) begin st = handleKey F (callbacks F) begin st := by
  simp only [handleKey_eq, endStep_bite, callAction_bite (p := .none) (F := F) nofun]

theorem handleObject_bite (pos : Pos) (st : St ToDdb) : handleObject F (bite F) pos st = handleObject F (callbacks F) pos st := by
  simp only [handleObject_eq, endStep_bite, handleKey_bite, callAction_bite (p := .object) (F := F) nofun]
  rfl

theorem handleItem_bite (begin : Bool) (st : St ToDdb) : handleItem F (bite F) begin st = handleItem F (callbacks F) begin st := rfl

theorem handleArray_bite (pos : Pos) (st : St ToDdb) : handleArray F (bite F) pos st = handleArray F (callbacks F) pos st := by
  simp only [handleArray, handleItem_bite, callAction_bite (p := .array) (F := F) nofun]

theorem bite_fair (F : Nat) : Fair (bite F) F (fun _ => True) := by
  apply fair_of
  intro p path b b' a s h hu
  simp only [bite] at h
  rcases hx : (callbacks F).find p ⟨path, path.length⟩ b with ⟨b1, _ | a1⟩
  · rw [hx] at h; simp at h
  · rw [hx] at h
    simp only [Prod.mk.injEq, Option.some.injEq] at h
    obtain ⟨rfl, rfl⟩ := h
    simp only
    by_cases hl : p = .atom ∧ lame F s = true
    · rw [if_pos hl]; trivial
    · rw [if_neg hl]
      simp only [callbacks, find] at hx
      have hact : ∀ f : ToDdb → Step, Gives s (act f .none s b1) := fun f => act_gives _ _ (.refl hu.sync) (by simp) _
      have hatom : p = .atom → lame F s = false := by
        intro hp
        cases hb : lame F s with
        | false => rfl
        | true => exact absurd ⟨hp, hb⟩ hl
      rcases path with _ | ⟨parent, l⟩
      · cases p <;> simp only [Prod.mk.injEq, Option.some.injEq, reduceCtorEq, and_false] at hx
        · obtain ⟨_, rfl⟩ := hx; exact hact _
        · obtain ⟨_, rfl⟩ := hx; exact onAtom_gives hu (hatom rfl) _
      · simp only at hx
        by_cases hp : parent = nameTop
        · rw [if_pos hp] at hx
          cases p <;> simp only [Prod.mk.injEq, Option.some.injEq, reduceCtorEq, and_false] at hx
          · obtain ⟨_, rfl⟩ := hx; exact hact _
          · obtain ⟨_, rfl⟩ := hx; exact hact _
          · obtain ⟨_, rfl⟩ := hx; exact onRootLiteral_gives hu (hatom rfl) _
        · rw [if_neg hp] at hx
          cases p <;> simp only [Prod.mk.injEq, Option.some.injEq] at hx <;> obtain ⟨_, rfl⟩ := hx
          · split <;> exact hact _
          · split <;> exact hact _
          · split
            · exact run_gives fun b => onAtom_gives hu (hatom rfl) b
            · exact onAtom_gives hu (hatom rfl) _
          · exact hact _

/-- A value for the two: the same; or the one goes on in front of something that is not a word, and the other one stops; or both stop. -/
theorem onValue_bite (c : Byte) {pos : Pos} {st : St ToDdb} (hu : Usable F st.rj) (hcl : st.rj.b.reader.Clean) :
    onValue F (bite F) opt c pos st = onValue F (callbacks F) opt c pos st ∨
    ∃ st' st2 e, onValue F (bite F) opt c pos st = (st2, .done (.err e)) ∧ st2.baton = st'.baton ∧
      (onValue F (callbacks F) opt c pos st = (st', .next pos) ∧ Dead F st'.rj ∧ st'.pool = st.pool ∨
      ∃ e', onValue F (callbacks F) opt c pos st = (st', .done (.err e'))) := by
  rw [onValue_eq, onValue_eq]
  by_cases h1 : c = 91
  · left; simp [h1]
  by_cases h2 : c = 123
  · left; simp [h2]
  rw [if_neg h1, if_neg h2, if_neg h1, if_neg h2]
  cases hb : lame F st.rj with
  | false => left; rw [callAction_bite fun _ => hb]
  | true =>
    right
    rcases callAction_gnaws hu hcl hb with ⟨st', e, h3, h4⟩ | ⟨st', er, e⟩
    · obtain ⟨st2, e2, h5, h6⟩ := callAction_lame hb e nofun
      rw [e, h5]; exact ⟨st', st2, e2, rfl, h6, .inl ⟨rfl, h3, h4⟩⟩
    · obtain ⟨st2, e2, h5, h6⟩ := callAction_lame hb e nofun
      rw [e, h5]; exact ⟨st', st2, e2, rfl, h6, .inr ⟨er, rfl⟩⟩

theorem turn_bite {pos : Pos} {st : St ToDdb} (h : Between F True (fun _ : ToDdb => True) R pos st) :
    turn F (bite F) opt pos st = turn F (callbacks F) opt pos st ∨
    ∃ st' st2 e, turn F (bite F) opt pos st = (st2, .done (.err e)) ∧ st2.baton = st'.baton ∧
      ((∃ p, turn F (callbacks F) opt pos st = (st', .next p) ∧ Resting p ∧ Dead F st'.rj ∧ ∃ l, Holds st'.pool R l) ∨
      ∃ e', turn F (callbacks F) opt pos st = (st', .done (.err e'))) := by
  unfold turn
  by_cases h1 : pos = .objectBegin ∨ pos = .objectMiddle
  · left; rw [if_pos h1, if_pos h1, handleObject_bite]
  rw [if_neg h1, if_neg h1]
  by_cases h2 : pos = .arrayBegin ∨ pos = .arrayMiddle
  · rw [if_pos h2, if_pos h2, handleArray_bite]
    have hl := handleArray_lands (bite_fair F) h h2
    rw [handleArray_bite] at hl
    revert hl
    rcases handleArray F (callbacks F) pos st with ⟨st2, ⟨_ | c, p⟩ | e | _ | _⟩ <;> intro hl
    · exact .inl rfl
    · obtain ⟨rfl, hb, _⟩ := hl
      simp only [if_true]
      rcases onValue_bite (opt := opt) c hb.fit.toUsable (hb.fit.clean trivial) with h3 | ⟨st', st3, e, h3, h4, ⟨h5, h6, h7⟩ | h5⟩
      · exact .inl h3
      · obtain ⟨l, hl, _⟩ := hb.stack
        exact .inr ⟨st', st3, e, h3, h4, .inl ⟨_, h5, .inr (.inl rfl), h6, l, by rw [h7]; exact hl⟩⟩
      · exact .inr ⟨st', st3, e, h3, h4, .inr h5⟩
    · exact .inl rfl
    · exact .inl rfl
    · exact .inl rfl
  rw [if_neg h2, if_neg h2]
  have hp := RJ.peek_runs h.fit.sync (by have := h.fit.len; omega) h.fit.fuel
  rcases hx : st.rj.peek F with ⟨s1, c | e | _ | _⟩ <;> rw [hx] at hp
  · obtain ⟨n, _, hm⟩ := hp
    have hf := h.fit.moved hm
    simp only
    rcases onValue_bite (opt := opt) (st := { st with rj := s1 }) (pos := if pos = .objectBetweenKV then .objectMiddle else pos) c hf.toUsable (hf.clean trivial)
      with h3 | ⟨st', st3, e, h3, h4, ⟨h5, h6, h7⟩ | h5⟩
    · exact .inl h3
    · obtain ⟨l, hl, _⟩ := h.stack
      refine .inr ⟨st', st3, e, h3, h4, .inl ⟨_, h5, ?_, h6, l, by rw [h7]; exact hl⟩⟩
      cases pos <;> simp_all [Resting]
    · exact .inr ⟨st', st3, e, h3, h4, .inr h5⟩
  · exact .inl rfl
  · exact .inl rfl
  · exact .inl rfl

/-! ## At a value that is `lame` -/

theorem head_of {tok : Bytes} {c : Byte} (h : tok.headD 0 = c) (hc : c ≠ 0) : tok.head? = some c := by
  cases tok with
  | nil => exact absurd h.symm hc
  | cons d r => rw [← h]; rfl

/-- With a writer that never fails, the word is written, and the answer is that the value is consumed. -/
theorem onAtom_lame {s : RJ} (hu : Usable F s) (hl : lame F s = true) {b : ToDdb} (hb : Well sound b) :
    ∃ ws c t s1 s' b', s.rest = ws ++ c :: t ∧ Blank ws ∧ isWs c = false ∧ RJ.rest s1 = c :: t ∧ onAtom F s b = ((s', b'), .op .valueIsConsumed) ∧
      Well sound b' ∧ ∀ tok : Bytes, tok.headD 0 = c → b.atom tok = (b', none) := by
  obtain ⟨b1, f1, hb1⟩ := (fine_writeComma b).well hb
  unfold lame at hl
  rcases hx : s.peek F with ⟨s1, c | e | _ | _⟩ <;> rw [hx] at hl
  · obtain ⟨ws, t, e, hws, hc, hs, _⟩ := RJ.peek_text hu.sync (by have := hu.len; omega) hu.fuel hx
    have hag := RJ.peek_again hx
    have key : ∀ {s' b'}, onAtom F s b = ((s', b'), .op .valueIsConsumed) → Well sound b' → (∀ tok : Bytes, tok.headD 0 = c → b.atom tok = (b', none)) →
        ∃ ws c t s1 s' b', s.rest = ws ++ c :: t ∧ Blank ws ∧ isWs c = false ∧ RJ.rest s1 = c :: t ∧ onAtom F s b = ((s', b'), .op .valueIsConsumed) ∧
          Well sound b' ∧ ∀ tok : Bytes, tok.headD 0 = c → b.atom tok = (b', none) :=
      fun {s' b'} h1 h2 h3 => ⟨ws, c, t, s1, s', b', e, Blank.of_aws hws, hc, hs, h1, h2, h3⟩
    simp only at hl
    by_cases hb0 : c = 116 ∨ c = 102
    · rw [if_pos hb0] at hl
      rcases hy : s1.knownBool F c with ⟨s2, v | e2 | _ | _⟩ <;> rw [hy] at hl
      · simp at hl
      · obtain ⟨b2, f2, hb2⟩ := (fine_indent b1).well hb1
        rcases hb0 with rfl | rfl
        · obtain ⟨b3, f3, hb3⟩ := Fine.well (b := b2) (x := (b2.put [34, 66, 79, 79, 76, 34, 58, 116, 114, 117, 101] "writing BOOL true").bind closeValue)
            ((fine_put _ _ b2).bind fine_closeValue) hb2
          refine key (s' := s2) (b' := b3) ?_ hb3 fun tok ht => ?_
          · unfold onAtom onBool
            rw [Step.run_none f1, hx]
            simp only [show (116 : Byte) ≠ 34 by decide, if_false, true_or, if_true, hag]
            rw [Step.run_none f2, hy]
            simp only [ignoring]
            exact act_none f3 s2
          · simp [atom, spell, Step.bind_none f1, head_of ht (by decide), Step.bind_none f2, f3]
        · obtain ⟨b3, f3, hb3⟩ := Fine.well (b := b2) (x := (b2.put [34, 66, 79, 79, 76, 34, 58, 102, 97, 108, 115, 101] "writing BOOL false").bind closeValue)
            ((fine_put _ _ b2).bind fine_closeValue) hb2
          refine key (s' := s2) (b' := b3) ?_ hb3 fun tok ht => ?_
          · unfold onAtom onBool
            rw [Step.run_none f1, hx]
            simp only [show (102 : Byte) ≠ 34 by decide, show (102 : Byte) ≠ 116 by decide, if_false, or_true, if_true, hag]
            rw [Step.run_none f2, hy]
            simp only [ignoring]
            exact act_none f3 s2
          · simp [atom, spell, Step.bind_none f1, head_of ht (by decide), Step.bind_none f2, f3]
      · simp at hl
      · simp at hl
    · rw [if_neg hb0] at hl
      by_cases hn : c = 110
      · rw [if_pos hn] at hl
        subst hn
        rcases hy : s1.knownNull F with ⟨s2, v | e2 | _ | _⟩ <;> rw [hy] at hl
        · simp at hl
        · obtain ⟨b2, f2, hb2⟩ := Fine.well (b := b1) (x := b1.indent.bind fun b =>
              (b.put [34, 78, 85, 76, 76, 34, 58, 116, 114, 117, 101] "writing NULL type").bind closeValue)
            ((fine_indent b1).bind fun b => (fine_put _ _ b).bind fine_closeValue) hb1
          refine key (s' := s2) (b' := b2) ?_ hb2 fun tok ht => ?_
          · unfold onAtom onNull
            rw [Step.run_none f1, hx]
            simp only [show (110 : Byte) ≠ 34 by decide, show ¬ ((110 : Byte) = 116 ∨ (110 : Byte) = 102) by decide, if_false, if_true, hag, ne_eq,
              not_true_eq_false, hy, ignoring]
            exact act_none f2 s2
          · simp [atom, spell, Step.bind_none f1, head_of ht (by decide), f2]
        · simp at hl
        · simp at hl
      · rw [if_neg hn] at hl; cases hl
  · cases hl
  · cases hl
  · cases hl

/-- The same for `scan`. -/
theorem callAction_word {st : St ToDdb} (hu : Usable F st.rj) (hcl : st.rj.b.reader.Clean) (hl : lame F st.rj = true) (hb : Well sound st.baton) :
    ∃ st', callAction (callbacks F) .atom st = (st', .consumed) ∧ Dead F st'.rj ∧ Well sound st'.baton := by
  have hg : ∃ b1 a s' b', (callbacks F).find .atom (.of st.pool) st.baton = (b1, some a) ∧ a st.rj b1 = ((s', b'), .op .valueIsConsumed) ∧ Well sound b' := by
    simp only [callbacks, find]
    rcases (Ctx.of st.pool).path with _ | ⟨parent, l⟩
    · obtain ⟨_, _, _, _, s', b', _, _, _, _, h1, h2, _⟩ := onAtom_lame hu hl hb
      exact ⟨_, _, s', b', rfl, h1, h2⟩
    · simp only
      by_cases hp : parent = nameTop
      · rw [if_pos hp]
        obtain ⟨b1, f1, hb1⟩ := Fine.well (b := st.baton) (x := (st.baton.put [123] "writing root literal opening brace").bind inc)
          ((fine_put _ _ _).bind fine_inc) hb
        obtain ⟨_, _, _, _, s', b', _, _, _, _, h1, h2, _⟩ := onAtom_lame hu hl hb1
        obtain ⟨b2, f2, hb2⟩ := Fine.well (b := b') (x := (b'.put [10] "writing final newline").bind (setComma false))
          ((fine_put _ _ _).bind (fine_setComma false)) h2
        refine ⟨_, _, s', b2, rfl, ?_, hb2⟩
        unfold onRootLiteral
        rw [Step.run_none f1, h1]
        exact act_none f2 s'
      · rw [if_neg hp]
        by_cases ha : parent = nameArray
        · rw [if_pos ha]
          obtain ⟨b1, f1, hb1⟩ := (fine_elementBegin st.baton).well hb
          obtain ⟨_, _, _, _, s', b', _, _, _, _, h1, h2, _⟩ := onAtom_lame hu hl hb1
          exact ⟨_, _, s', b', rfl, by unfold onElementAtom; rw [Step.run_none f1, h1], h2⟩
        · rw [if_neg ha]
          obtain ⟨_, _, _, _, s', b', _, _, _, _, h1, h2, _⟩ := onAtom_lame hu hl hb
          exact ⟨_, _, s', b', rfl, h1, h2⟩
  obtain ⟨b1, a, s', b', h1, h2, h3⟩ := hg
  have e : callAction (callbacks F) .atom st = (⟨s', b', st.pool⟩, .consumed) := by
    unfold callAction
    rw [h1]
    simp only [h2]
  refine ⟨_, e, ?_, h3⟩
  rcases callAction_gnaws hu hcl hl with ⟨st', e', h4, _⟩ | ⟨st', er, e'⟩ <;> rw [e] at e' <;> injection e' with e1 e2
  · rw [e1]; exact h4
  · cases e2

/-- At the top level it goes on for ever. -/
theorem mainLoop_endless (hse : opt.stopEarly = false) : ∀ (n : Nat) (pr : Bool) (st : St ToDdb), Dead F st.rj → Well sound st.baton →
    (mainLoop F (callbacks F) opt n pr .top st).2 = .diverge := by
  intro n
  induction n with
  | zero => intro pr st _ _; rfl
  | succ n ih =>
    intro pr st h hb
    obtain ⟨s1, c, h1, hc, hd, _⟩ := h.peek
    unfold mainLoop
    rw [if_neg (by simp [hse]), turn_top h1]
    have h91 : c ≠ 91 ∧ c ≠ 123 := by rcases hc with rfl | rfl | rfl <;> decide
    rw [onValue_eq, if_neg h91.1, if_neg h91.2]
    obtain ⟨st', e, h2, h3⟩ := callAction_word (st := { st with rj := s1 }) hd.usable hd.clean hd.lame hb
    rw [e]
    exact ih true st' h2 h3

/-- If the converter returns an error, the one that stops has written the same. -/
theorem mainLoop_bite (ht : opt.sseTokens = []) (hse : opt.stopEarly = false) {st' : St ToDdb} {e : SErr} : ∀ (n : Nat) (b : Bool) (pos : Pos) (st : St ToDdb),
    Between F True (fun _ : ToDdb => True) R pos st → Well sound st.baton → mainLoop F (callbacks F) opt n b pos st = (st', .err e) →
    ∃ st2 e', mainLoop F (bite F) opt n b pos st = (st2, .err e') ∧ st2.baton = st'.baton := by
  intro n
  induction n with
  | zero => intro b pos st _ _ h; simp [mainLoop] at h
  | succ n ih =>
    intro b pos st hb hK h
    unfold mainLoop at h ⊢
    rw [if_neg (by simp [hse])] at h ⊢
    have htt := turn_turns (bite_fair F) (opt := opt) (by rw [ht]; exact tokensRun_nil) hb
    obtain ⟨_, gk⟩ := guard_turn (F := F) (callbacks_keep F sound) opt pos st hK
    rcases turn_bite (opt := opt) hb with h1 | ⟨st1, st2, e1, h1, h2, ⟨p, h3, h4, h5, l, h6⟩ | ⟨e2, h3⟩⟩
    · rw [h1] at htt ⊢
      rcases hx : turn F (callbacks F) opt pos st with ⟨st2, p | r⟩
      · rw [hx] at h htt
        exact ih true p st2 htt.1 (gk _ _ hx) h
      · rw [hx] at h
        simp only at h ⊢
        exact ⟨st', e, h, rfl⟩
    · rw [h1]
      rw [h3] at h
      simp only at h ⊢
      refine ⟨st2, e1, rfl, ?_⟩
      rcases h4 with rfl | h4
      · have := mainLoop_endless hse n true st1 h5 (gk _ _ h3)
        rw [h] at this
        cases this
      · cases n with
        | zero => simp [mainLoop] at h
        | succ n =>
          obtain ⟨st4, e4, h7, h8⟩ := turn_dead (opt := opt) h5 h6 h4
          unfold mainLoop at h
          rw [if_neg (by simp [hse]), h7] at h
          simp only [Prod.mk.injEq] at h
          rw [h2, ← h8, h.1]
    · rw [h1]
      rw [h3] at h
      simp only [Prod.mk.injEq] at h ⊢
      exact ⟨st2, e1, ⟨rfl, rfl⟩, by rw [h2, h.1]⟩

theorem scan_bite {turns : Nat} (ht : opt.sseTokens = []) (hse : opt.stopEarly = false) {st st' : St ToDdb} {e : SErr} (hu : Usable F st.rj)
    (hcl : st.rj.b.reader.Clean) {l : List (Pos × Bytes)} (hl : Holds st.pool R l) (hb : Well sound st.baton)
    (h : scan turns F (callbacks F) opt st = (st', .err e)) : ∃ st2 e', scan turns F (bite F) opt st = (st2, .err e') ∧ st2.baton = st'.baton := by
  unfold scan at h ⊢
  by_cases hfit : R.Fits (names l) nameTop
  · obtain ⟨p', r, e1, hp⟩ := hl.push .top nameTop hfit
    rw [e1] at h ⊢
    exact mainLoop_bite ht hse (R := R) _ _ _ _ ⟨⟨hu, fun _ => hcl⟩, trivial, _, hp, .top _ _, ⟨_, _, rfl⟩⟩ hb h
  · obtain ⟨p', er, e1, _⟩ := hl.push_full .top nameTop hfit
    rw [e1] at h ⊢
    simp only [Prod.mk.injEq] at h ⊢
    exact ⟨_, _, ⟨rfl, rfl⟩, by rw [← h.1]⟩

/-! ## The callbacks only append -/

/-- What was written. -/
abbrev written (b : ToDdb) : Bytes := b.d.w.out

theorem op_fst (x : Step) (o : StreamOp) : (x.op o).1 = x.1 := by
  rcases x with ⟨b, _ | m⟩ <;> rfl

theorem Smooth.adds {k : ToDdb → Step} (h : Smooth k) (b : ToDdb) : b.written <+: (k b).1.written := (h b).2

theorem bind_adds {x : Step} {k : ToDdb → Step} {out : Bytes} (h : out <+: x.1.written) (hk : ∀ b, b.written <+: (k b).1.written) :
    out <+: (x.bind k).1.written := by
  rcases x with ⟨b, _ | m⟩
  · exact h.trans (hk b)
  · exact h

/-- A string is written behind what comes first. -/
theorem string_adds {tok : Bytes} (ht : tok.head? = some 34) (b : ToDdb) {b1 : ToDdb}
    (h : b.indent.bind (put [34, 83, 34, 58, 34] "writing S type opening") = (b1, none)) {y : Bytes} (hy : y <+: tok.tail.dropLast) :
    b1.written ++ y <+: (b.spell tok).1.written := by
  unfold spell
  rw [if_pos ht, h]
  have h1 := (smooth_flushLong.bind ((smooth_put [34] "writing S type closing quote").bind smooth_closeValue)).adds
    ({ b1 with d := { b1.d with w := ⟨b1.d.w.out ++ tok.tail.dropLast, []⟩ } } : ToDdb)
  exact (prefix_mid _ hy).trans h1

theorem spell_adds (tok : Bytes) (b : ToDdb) : b.written <+: (b.spell tok).1.written := by
  by_cases ht : tok.head? = some 34
  · have h := (smooth_indent.bind (smooth_put [34, 83, 34, 58, 34] "writing S type opening")).adds b
    rcases hx : b.indent.bind (put [34, 83, 34, 58, 34] "writing S type opening") with ⟨b1, _ | m⟩
    · simp only [hx] at h
      exact h.trans ((List.prefix_append _ []).trans (string_adds ht b hx List.nil_prefix))
    · simp only [hx] at h
      unfold spell
      rw [if_pos ht, hx]
      exact h
  · unfold spell
    rw [if_neg ht]
    split
    · exact (smooth_indent.bind ((smooth_put _ _).bind smooth_closeValue)).adds b
    · split
      · exact (smooth_indent.bind ((smooth_put _ _).bind smooth_closeValue)).adds b
      · split
        · exact (smooth_indent.bind ((smooth_put _ _).bind smooth_closeValue)).adds b
        · exact (smooth_indent.bind ((smooth_put _ _).bind ((smooth_put _ _).bind ((smooth_put _ _).bind smooth_closeValue)))).adds b

theorem atom_adds (tok : Bytes) (b : ToDdb) : b.written <+: (b.atom tok).1.written := bind_adds (smooth_writeComma.adds b) (spell_adds tok)

theorem literal_adds (tok : Bytes) (b : ToDdb) : b.written <+: (b.literal tok).1.written :=
  bind_adds (((smooth_put _ _).bind smooth_inc).adds b) fun b => bind_adds (atom_adds tok b) ((smooth_put _ _).bind (smooth_setComma _)).adds

theorem grows : Grows handler written := by
  constructor
  · intro p path v b
    simp only [handler]
    rcases path with _ | ⟨parent, above⟩
    · cases p with
      | atom => rw [op_fst]; exact atom_adds _ b
      | array => rw [op_fst]; exact smooth_arrayBegin.adds b
      | object => exact List.prefix_rfl
      | none => exact List.prefix_rfl
    · simp only
      split
      · cases p with
        | atom => rw [op_fst]; exact literal_adds _ b
        | array => rw [op_fst]; exact smooth_rootArray.adds b
        | object => rw [op_fst]; exact smooth_rootObjectBegin.adds b
        | none => exact List.prefix_rfl
      · cases p with
        | none => rw [op_fst]; exact smooth_fieldKey.adds ({ b with field := some parent } : ToDdb)
        | atom =>
          rw [op_fst]
          split
          · exact bind_adds (smooth_elementBegin.adds b) (atom_adds _)
          · exact atom_adds _ b
        | array =>
          rw [op_fst]
          split
          · exact (smooth_elementBegin.bind smooth_arrayBegin).adds b
          · exact smooth_arrayBegin.adds b
        | object =>
          rw [op_fst]
          split
          · exact (smooth_elementBegin.bind smooth_objectBegin).adds b
          · exact smooth_objectBegin.adds b
  · intro p path b
    simp only [handler]
    rcases path with _ | ⟨parent, above⟩
    · exact List.prefix_rfl
    · simp only
      split
      · cases p with
        | object => exact smooth_rootObjectEnd.adds b
        | array => exact smooth_rootArrayEnd.adds b
        | atom => exact List.prefix_rfl
        | none => exact List.prefix_rfl
      · cases p with
        | object => exact smooth_objectEnd.adds b
        | array => exact smooth_arrayEnd.adds b
        | atom => exact List.prefix_rfl
        | none => exact List.prefix_rfl

theorem grows_guarded : Grows guarded written := by
  constructor
  · intro p path v b
    by_cases hK : Well sound b
    · rw [guarded, guardH_start hK]; exact grows.start p path v b
    · simp only [guarded, guardH, hK, if_false]; exact List.prefix_rfl
  · intro p path b
    by_cases hK : Well sound b
    · simp only [guarded, guardH, hK, if_true]; exact grows.finish p path b
    · simp only [guarded, guardH, hK, if_false]; exact List.prefix_rfl

/-! ## Callbacks that fail -/

/-- What was written by an action that failed is the beginning of what `H` writes for the value. -/
def Fell (u : Bytes) (p : Pseudo) (s : RJ) (H : Val → ToDdb × StreamOp) : (RJ × ToDdb) × Acted → Prop
  | (_, .op .none) => True
  | (_, .op .valueIsConsumed) => True
  | ((_, b''), _) => ∀ ws v t, Spaces ws → v.Meets .plain → v.Clear t → Starts p v → s.rest ++ u = ws ++ (v.text ++ t) →
      b''.written <+: (H v).1.written

theorem fell_any {u : Bytes} {p : Pseudo} {s : RJ} {H : Val → ToDdb × StreamOp} {x : (RJ × ToDdb) × Acted}
    (h : ∀ v, x.1.2.written <+: (H v).1.written) : Fell u p s H x := by
  rcases x with ⟨⟨s', b⟩, (_ | _ | m) | _ | _⟩
  · trivial
  · trivial
  all_goals exact fun _ v _ _ _ _ _ _ => h v

theorem fell_act {u : Bytes} {p : Pseudo} {s : RJ} (f : ToDdb → Step) (b : ToDdb) : Fell u p s (fun _ => (f b).op .none) (act f .none s b) := by
  unfold act Step.run
  rcases f b with ⟨b', _ | m⟩
  · trivial
  · exact fun _ _ _ _ _ _ _ _ => List.prefix_rfl

theorem fell_consumed {u : Bytes} {p : Pseudo} {s s' : RJ} {H : Val → ToDdb × StreamOp} {f : ToDdb → Step} {b b' : ToDdb} (h : f b = (b', none)) :
    Fell u p s H (act f .valueIsConsumed s' b) := by
  rw [act_none h]
  trivial

/-- The action for a string, number or literal, with the stop behind one that is `lame`. -/
theorem onAtom_fell {u : Bytes} {s : RJ} (hf : Scan.Fine F strict s) (hs : strict.safe) {b : ToDdb} (hb : Well sound b) :
    Fell u .atom s (fun v => (b.atom v.text).op .valueIsConsumed) (if lame F s = true then stopped (onAtom F s b) else onAtom F s b) := by
  by_cases hl : lame F s = true
  · rw [if_pos hl]
    obtain ⟨ws, c, t, s1, s', b', e, hws, hc, hs1, h1, _, h2⟩ := onAtom_lame hf.usable hl hb
    rw [h1]
    intro ws' v x k1 k2 k3 k4 k5
    obtain ⟨_, k6⟩ := ToNormal.first_seen hws hc e hs1 k1 k2 k5
    rw [op_fst, h2 _ k6]
    exact List.prefix_rfl
  · rw [if_neg hl]
    have hl : lame F s = false := by simpa using hl
    obtain ⟨b1, f1, hb1⟩ := (fine_writeComma b).well hb
    have hb1w : ∀ v : Val, b1.written <+: ((b.atom v.text).op .valueIsConsumed).1.written := by
      intro v
      rw [op_fst, atom, Step.bind_none f1]
      exact spell_adds _ b1
    unfold onAtom
    rw [Step.run_none f1]
    unfold lame at hl
    rcases hx : s.peek F with ⟨s1, c | e | _ | _⟩
    · obtain ⟨ws, t, e, hws, hc, hs1, hm⟩ := RJ.peek_text hf.usable.sync hf.len hf.usable.fuel hx
      have hf1 : Scan.Fine F strict s1 := hf.loop hm hx
      have hag := RJ.peek_again hx
      rw [hx] at hl
      have hl2 : 2 ≤ s1.b.buf.length := by have := hf1.usable.len; omega
      simp only at hl ⊢
      by_cases h34 : c = 34
      · subst h34
        rw [if_pos rfl]
        obtain ⟨b2, f2, hb2⟩ := Fine.well (b := b1) (x := b1.indent.bind (put [34, 83, 34, 58, 34] "writing S type opening"))
          ((fine_indent b1).bind (fine_put _ _)) hb1
        unfold onString
        rw [Step.run_none f2]
        obtain ⟨y, t', y', z, e1, e0, e2, _, e4, e5⟩ := C89_bytes s1 F b2.d.w _ _ hf1.usable.sync hs1 (by decide)
        rw [e5 (well_iff.1 hb2).1, List.append_nil] at e0
        subst e0
        have key : ∀ ws' (v : Val) x, Spaces ws' → v.Meets .plain → s.rest ++ u = ws' ++ (v.text ++ x) →
            b2.written ++ y <+: ((b.atom v.text).op .valueIsConsumed).1.written := by
          intro ws' v x h1 h2 h3
          obtain ⟨k1, _⟩ := ToNormal.first_seen (Blank.of_aws hws) hc e hs1 h1 h2 h3
          obtain ⟨k2, k3⟩ := string_body (c := t' ++ u) h2 (e4 (hf1.safe hs)) (by rw [← k1, hs1, e1]; simp)
          rw [op_fst, atom, Step.bind_none f1]
          exact string_adds k2 b1 f2 k3
        rcases hy : s1.writeLongBytes F b2.d.w with ⟨⟨s2, w2⟩, r2 | e2' | _ | _⟩
        · have hw2 : w2.plan = [] := by
            have := handleLong_wrote .raw F s1 b2.d.w
            rw [show RJ.handleLong .raw F s1 b2.d.w = _ from hy] at this
            rcases this with h | ⟨_, _, _, h⟩
            · exact h.clean (well_iff.1 hb2).1
            · cases h
          obtain ⟨b3, f3, _⟩ := Fine.well (b := { b2 with d := { b2.d with w := w2 } })
            ((fine_flushLong _).bind fun b => (fine_put [34] "writing S type closing quote" b).bind fine_closeValue)
            (well_iff.2 ⟨hw2, (well_iff.1 hb2).2.1, (well_iff.1 hb2).2.2⟩)
          exact fell_consumed f3
        all_goals
          rw [hy] at e2
          intro ws' v x h1 h2 h3 h4 h5
          show w2.out <+: _
          rw [show w2.out = _ from e2]
          exact key ws' v x h1 h2 h5
      · rw [if_neg h34]
        by_cases hb0 : c = 116 ∨ c = 102
        · rw [if_pos hb0] at hl ⊢
          unfold onBool
          rw [hag]
          obtain ⟨b2, f2, hb2⟩ := (fine_indent b1).well hb1
          simp only
          rw [Step.run_none f2]
          have hrun := RJ.knownBool_runs c hf1.usable.sync hl2 hf1.usable.fuel
          have hput : ∀ (bs : Bytes) (m : String), ∃ b3, (b2.put bs m).bind closeValue = (b3, none) := fun bs m => by
            obtain ⟨b3, f3, _⟩ := Fine.well (b := b2) (x := (b2.put bs m).bind closeValue) ((fine_put _ _ b2).bind fine_closeValue) hb2
            exact ⟨b3, f3⟩
          rcases hy : s1.knownBool F c with ⟨s2, v | e2 | _ | _⟩ <;> rw [hy] at hrun hl
          · simp only [ignoring]
            rcases hb0 with rfl | rfl
            · rw [if_pos rfl]
              obtain ⟨b3, f3⟩ := hput _ _
              exact fell_consumed f3
            · rw [if_neg (by decide), if_pos rfl]
              obtain ⟨b3, f3⟩ := hput _ _
              exact fell_consumed f3
          · simp at hl
          · exact hrun.elim
          · exact hrun.elim
        · rw [if_neg hb0] at hl ⊢
          by_cases hn : c = 110
          · subst hn
            rw [if_pos rfl] at hl ⊢
            unfold onNull
            rw [hag]
            simp only [ne_eq, not_true_eq_false, if_false]
            have hrun := RJ.knownNull_runs hf1.usable.sync hl2 hf1.usable.fuel
            rcases hy : s1.knownNull F with ⟨s2, v | e2 | _ | _⟩ <;> rw [hy] at hrun hl
            · obtain ⟨b3, f3, _⟩ := Fine.well (b := b1) (x := b1.indent.bind fun b =>
                  (b.put [34, 78, 85, 76, 76, 34, 58, 116, 114, 117, 101] "writing NULL type").bind closeValue)
                ((fine_indent b1).bind fun b => (fine_put _ _ b).bind fine_closeValue) hb1
              exact fell_consumed (f := fun b => b.indent.bind fun b =>
                (b.put [34, 78, 85, 76, 76, 34, 58, 116, 114, 117, 101] "writing NULL type").bind closeValue) f3
            · simp at hl
            · exact hrun.elim
            · exact hrun.elim
          · rw [if_neg hn]
            unfold onNumber
            rcases hy : s1.nextNumberBytes F with ⟨s2, v | e2 | _ | _⟩
            · obtain ⟨b3, f3, _⟩ := Fine.well (b := b1) (x := b1.indent.bind fun b => (b.put [34, 78, 34, 58, 34] "writing N type opening").bind fun b =>
                  (b.put (v.take 32) "writing number value").bind fun b => (b.put [34] "writing N type closing quote").bind closeValue)
                ((fine_indent b1).bind fun b => (fine_put _ _ b).bind fun b => (fine_put _ _ b).bind fun b => (fine_put _ _ b).bind fine_closeValue) hb1
              exact fell_consumed f3
            all_goals exact fell_any hb1w
    all_goals exact fell_any hb1w

/-- The same for what a matcher returns. -/
def Fails (u : Bytes) (p : Pseudo) (s : RJ) (H : Val → ToDdb × StreamOp) : ToDdb × Option (Action ToDdb) → Prop
  | (_, none) => True
  | (b, some act) => Fell u p s H (act s b)

theorem find_fails {u : Bytes} (p : Pseudo) (path : List Bytes) {s : RJ} (hf : Scan.Fine F strict s) (hs : strict.safe) {b : ToDdb} (hb : Well sound b)
    (hp : ¬ (p = .atom ∧ path.head? = some nameTop)) : Fails u p s (fun v => handler.start p path v b) ((bite F).find p ⟨path, path.length⟩ b) := by
  have other : ∀ {f : ToDdb → Step} (b : ToDdb), p ≠ .atom →
      Fell u p s (fun _ => (f b).op .none) (if p = .atom ∧ lame F s = true then stopped (act f .none s b) else act f .none s b) := by
    intro f b h
    rw [if_neg (fun e => h e.1)]
    exact fell_act f b
  simp only [bite, callbacks, find, handler]
  rcases path with _ | ⟨parent, above⟩
  · cases p with
    | none => trivial
    | object => trivial
    | atom => simpa [Fails] using onAtom_fell hf hs hb
    | array => exact other b nofun
  · by_cases ht : parent = nameTop
    · simp only [ht, if_true]
      cases p with
      | none => trivial
      | object => exact other b nofun
      | atom => exact absurd ⟨rfl, by rw [ht]; rfl⟩ hp
      | array => exact other b nofun
    · simp only [ht, if_false]
      by_cases ha : parent = nameArray
      · simp only [ha, if_true]
        cases p with
        | none => exact other _ nofun
        | object => exact other (f := fun b => b.elementBegin.bind objectBegin) b nofun
        | atom =>
          obtain ⟨b1, f1, hb1⟩ := (fine_elementBegin b).well hb
          have := onAtom_fell (u := u) hf hs hb1
          simp only [Fails, onElementAtom, Step.run_none f1, Step.bind_none f1, true_and]
          exact this
        | array => exact other (f := fun b => b.elementBegin.bind arrayBegin) b nofun
      · simp only [ha, if_false]
        cases p with
        | none => exact other _ nofun
        | object => exact other b nofun
        | atom => simpa [Fails] using onAtom_fell hf hs hb
        | array => exact other b nofun

theorem sees_bite : SeesOn (Well sound) (bite F) handler F strict := by
  refine sees_of (fun p path b s hb hf => ?_) fun p path b _ => ended_handler (F := F) p path b
  have h := sights hf p path hb
  unfold bite
  simp only
  have hn : p = .atom → ((callbacks F).find p ⟨path, path.length⟩ b).2 ≠ none := by
    rintro rfl
    exact find_atom path b
  by_cases hp : p = .atom ∧ lame F s = true
  · revert hn
    rcases (callbacks F).find p ⟨path, path.length⟩ b with ⟨b', _ | a⟩ <;> intro hn
    · exact absurd rfl (hn hp.1)
    · simp only [Sights, if_pos hp]
      trivial
  · have h := h (fun e => by cases hx : lame F s <;> simp_all)
    revert h
    rcases (callbacks F).find p ⟨path, path.length⟩ b with ⟨b', _ | a⟩
    · exact id
    · simp only [Sights, if_neg hp]
      exact id

theorem bite_keep (F : Nat) (d : Dest) : Keeps (bite F) (Well d) (fun _ _ _ => True) := by
  have h := callbacks_keep F d
  refine ⟨fun p c b hb => ?_, fun p c b hb => ?_⟩
  · have h := h.1 p c b hb
    simp only [bite]
    revert h
    rcases (callbacks F).find p c b with ⟨b', _ | a⟩
    · exact fun h => ⟨h.1, nofun⟩
    · intro h
      refine ⟨h.1, fun a' e s => ?_⟩
      injection e with e
      subst e
      simp only
      by_cases hp : p = .atom ∧ lame F s = true
      · rw [if_pos hp]
        trivial
      · rw [if_neg hp]
        have := h.2 a rfl s
        revert this
        simp only
        rcases a s b' with ⟨⟨s', b''⟩, (_ | _ | m) | _ | _⟩ <;> intro h
        · exact h
        · exact h
        · trivial
        · exact h
        · exact h
  · have h := h.2 p c b hb
    refine ⟨h.1, fun a e => ?_⟩
    have := h.2 a e
    revert this
    rw [show (bite F).findEnd p c b = (callbacks F).findEnd p c b from rfl]
    rcases a ((callbacks F).findEnd p c b).1 with ⟨b', _ | m⟩
    · exact id
    · exact fun _ _ => trivial

theorem sees_all (u : Bytes) (hs : strict.safe) : SeesAll (guardCb (Well sound) (bite F)) guarded (Onward guarded written u True) F strict := by
  refine ⟨guard_sees sees_bite, fun p path b s hf => ?_⟩
  by_cases hK : Well sound b
  · have h := find_fails (u := u) p path hf hs hK
    simp only [guardCb, hK, if_true]
    have hE : ∀ b'', (¬ (p = .atom ∧ path.head? = some nameTop) → ∀ ws v t, Spaces ws → v.Meets .plain → v.Clear t → Starts p v →
        s.rest ++ u = ws ++ (v.text ++ t) → b''.written <+: (handler.start p path v b).1.written) → Onward guarded written u True p path s.rest b b'' := by
      intro b'' h h0 ws v t h1 h2 h3 h4 h5
      rw [guarded, guardH_start hK]
      exact h (h0 trivial) ws v t h1 h2 h3 h4 h5
    revert h
    rcases (bite F).find p ⟨path, path.length⟩ b with ⟨b', _ | act⟩
    · exact fun _ => trivial
    · simp only [Fails]
      rcases act s b' with ⟨⟨s', b''⟩, (_ | _ | m) | _ | _⟩
      · exact fun _ => trivial
      · exact fun _ => trivial
      all_goals exact hE b''
  · simp only [guardCb, hK, if_false]
    exact fun _ ws v t _ _ _ _ _ => grows_guarded.start p path v b

/-- A stop in front of a string, number or literal on the top level. -/
theorem of_atom {t u : Bytes} : ∀ (ds' ds : Docs), Docs.Of t u (.begun .atom) ds' ds → ∃ d ∈ ds, ∃ tok, d.2 = .atom tok
  | [], [], h => nomatch h
  | [], (b, v) :: ds, h => by
    obtain ⟨_, h, _⟩ := h
    cases v with
    | atom tok => exact ⟨_, List.mem_cons_self .., tok, rfl⟩
    | arr => exact h.elim
    | obj => exact h.elim
  | _ :: _, [], h => h.elim
  | _ :: ds', _ :: ds, h => by
    rcases h with ⟨_, h⟩ | ⟨_, _, h, _⟩
    · obtain ⟨d, h1, h2⟩ := of_atom ds' ds h
      exact ⟨d, List.mem_cons_of_mem _ h1, h2⟩
    · cases h

theorem docs_last {z b0 : Bytes} {c : Byte} (h : z.getLast? = some c) : ∀ ds : Docs, (Docs.text ds (b0 ++ z)).getLast? = some c
  | [] => by simp [Docs.text, List.getLast?_append, h]
  | (b, v) :: ds => by simp [Docs.text, List.getLast?_append, docs_last h ds]

/-- What a run with a sound writer has done, `Ok` or not, if no literal on the top level is broken: it has read documents and the beginning of a
document. -/
theorem run_begins {turns F : Nat} {reader : Reader} {rb cb u out : Bytes} {pretty ub item : Bool} (h8 : 8 ≤ rb.length)
    (hf : 2 * reader.size + 2 ≤ F) (hn : 2 * reader.pending.length + 3 ≤ turns) (hcl : reader.Clean) (hh : Harmless (.new reader rb))
    (hw : ∀ ds ws x, reader.pending = Docs.text ds (ws ++ x) → Docs.Loose (Harmless (.new reader rb)) ds ws → Docs.Parted rb.length ds (ws ++ x) →
      ¬ Wordless x) :
    ∃ ub' ds b0 x t b1 b', (ub' = ub ∨ ub' = false) ∧ reader.pending = Docs.text ds (b0 ++ (Stub.lead x ++ t)) ∧ Docs.Loose (Harmless (.new reader rb)) ds b0 ∧
      Docs.Parted rb.length ds (b0 ++ (Stub.lead x ++ t)) ∧ x.Loose (Harmless (.new reader rb)) ∧ x.Parted rb.length t ∧
      Docs.scan guarded ⟨cb.length - 136, 34, 34⟩ [nameTop] ds (Cfg.st ⟨item, ub', pretty⟩ out false none 0) = .done b1 ∧
      x.Gives guarded (Onward guarded written u True) ⟨cb.length - 136, 34, 34⟩ [nameTop] t b1 b' ∧
      (convertNormalToDdb turns F reader ⟨⟨out, []⟩, []⟩ rb cb pretty ub item).1.d.w.out = b'.d.w.out := by
  have hu := usable_new reader rb F h8 hf
  rcases C82_returns_partial F reader ⟨⟨out, []⟩, []⟩ rb cb pretty ub item hu hcl turns hn with h | ⟨e, position, h⟩ | ⟨ds, ws, x, h1, h2, h3, h4⟩
  · obtain ⟨ds, tail, b', h1, h2, h3, h4, h5⟩ := ok_docs hu hcl h
    exact ⟨false, ds, tail, .nothing, [], b', b', .inr rfl, by simpa [Stub.lead] using h1, h2, by simpa [Stub.lead] using h3, trivial, trivial, h4, rfl, h5⟩
  · by_cases hcb : 136 < cb.length
    · obtain ⟨pool, hp, hl⟩ := pool_new cb 34 (by decide) (by decide) (by omega)
      unfold convertNormalToDdb at h ⊢
      simp only [hp] at h ⊢
      have hK : Well sound (ToDdb.new ⟨⟨out, []⟩, []⟩ item pretty ub) := well_iff.2 ⟨rfl, rfl, rfl⟩
      rcases hs : scan turns F (callbacks F) ⟨[], false⟩ ⟨.new reader rb, .new ⟨⟨out, []⟩, []⟩ item pretty ub, pool⟩ with ⟨st, _ | e' | _ | _⟩
      · rw [hs] at h; simp at h
      · obtain ⟨st2, e2, hs2, hb⟩ := scan_bite rfl rfl hu hcl hl hK hs
        have hg := guard_scan (bite_keep F sound) turns F ⟨[], false⟩ ⟨.new reader rb, .new ⟨⟨out, []⟩, []⟩ item pretty ub, pool⟩ hK
        rw [hs2] at hg
        obtain ⟨ds, b0, x, t, b1, k1, _, k3, k4, k5, k5', k6, k7⟩ :=
          (scan_part (sees_all u (strict := ⟨Harmless (.new reader rb), rb.length⟩) hh) rfl turns ⟨hu, id, rfl⟩ hl hg (by simp) (by simp)).broken_stop
        exact ⟨ub, ds, b0, x, t, b1, st2.baton, .inl rfl, by rw [← rest_new reader rb]; exact k1, k3, k4, k5, k5', k6, k7, by rw [hb]⟩
      · rw [hs] at h; simp at h
      · rw [hs] at h; simp at h
    · refine ⟨ub, [], [], .nothing, reader.pending, _, _, .inl rfl, by simp [Stub.lead, Docs.text], List.forall_mem_nil _, trivial, trivial, trivial, rfl, rfl, ?_⟩
      unfold convertNormalToDdb U8Pool.new
      have : U8Pool.descSize = 4 := rfl
      rw [if_neg (by decide)]
      by_cases hc : cb = []
      · rw [if_pos hc]
        rfl
      · rw [if_neg hc]
        dsimp only
        rw [if_pos (by rw [this]; omega)]
        rfl
  · exact absurd h4 (hw ds ws x h1 h2 h3)

end ToDdb

/-! ## C93 -/

theorem short_of {ds : Docs} (h : ∀ d ∈ ds, ∀ tok, d.2 ≠ .atom tok) (L : Nat) : ∀ d ∈ ds, d.2.Short L := by
  intro v hv
  have := h v hv
  revert this
  cases v.2 with
  | atom tok => exact fun h => absurd rfl (h tok)
  | arr => exact fun _ => trivial
  | obj => exact fun _ => trivial

mutual
theorem keys_weaken {P Q : Bytes → Prop} (h : ∀ k, P k → Q k) : ∀ v : Val, v.Keys P → v.Keys Q
  | .atom _, _ => trivial
  | .arr _ is, k => keys_weaken_items h is k
  | .obj _ ms, k => keys_weaken_members h ms k
theorem keys_weaken_items {P Q : Bytes → Prop} (h : ∀ k, P k → Q k) : ∀ is : Items, is.Keys P → is.Keys Q
  | .nil, _ => trivial
  | .cons _ v _ more, k => ⟨keys_weaken h v k.1, keys_weaken_items h more k.2⟩
theorem keys_weaken_members {P Q : Bytes → Prop} (h : ∀ k, P k → Q k) : ∀ ms : Members, ms.Keys P → ms.Keys Q
  | .nil, _ => trivial
  | .cons _ k _ _ v _ more, hk => ⟨h k hk.1, keys_weaken h v hk.2.1, keys_weaken_members h more hk.2.2⟩
end

/-- A writer that does not fail. -/
theorem beginning_ddb {turns F : Nat} {reader : Reader} {rb cb u tail out : Bytes} {pretty ub item : Bool} {ds : Docs} {R : Room}
    (h8 : 8 ≤ rb.length) (hf : 2 * reader.size + 2 ≤ F) (hn : 2 * reader.pending.length + 3 ≤ turns) (hcl : reader.Clean)
    (hh : Harmless (.new reader rb)) (hr : reader.pending ++ u = Docs.text ds tail) (hj : Docs.Json ds tail)
    (ha : ∀ d ∈ ds, ∀ tok, d.2 ≠ .atom tok) (hk : ∀ d ∈ ds, d.2.Keys (· ≠ nameTop)) (hd : ∀ d ∈ ds, Atoms (Within rb.length) d.2)
    (hcut : u = [] ∨ ∀ c, reader.pending.getLast? = some c → ¬ Digit c) {z : Bytes}
    (h2 : ∀ ub', (ub' = ub ∨ ub' = false) → ∃ b2, Docs.scan ToDdb.guarded R [nameTop] ds (ToDdb.Cfg.st ⟨item, ub', pretty⟩ out false none 0) = .done b2 ∧
      b2.d.w.out = z) :
    (convertNormalToDdb turns F reader ⟨⟨out, []⟩, []⟩ rb cb pretty ub item).1.d.w.out <+: z := by
  have hsh := short_of ha rb.length
  have hw : ∀ ds ws x, reader.pending = Docs.text ds (ws ++ x) → Docs.Loose (Harmless (.new reader rb)) ds ws → Docs.Parted rb.length ds (ws ++ x) →
      ¬ Wordless x := by
    rintro ds' ws x k1 k2 k3 ⟨c, t, rfl, hc, _⟩
    have hfc : Stub.Faces (.begun .atom) (c :: t) := by
      refine ⟨c, t, rfl, ?_⟩
      rcases hc with rfl | rfl | rfl <;> (unfold Space; decide)
    obtain ⟨d, h1, tok, h2⟩ := ToDdb.of_atom _ _ (Docs.start (x := .begun .atom) (b0 := ws) hh trivial hfc ds' ds hj hsh k2 k3 (k1 ▸ hr))
    exact ha d h1 tok h2
  obtain ⟨ub', ds', b0, x, t, b1, b', k0, k1, k3, k4, k5, k5', k6, k7, k8⟩ := ToDdb.run_begins (u := u) (out := out) (cb := cb) (pretty := pretty) (ub := ub)
    (item := item) h8 hf hn hcl hh hw
  obtain ⟨b2, h2', rfl⟩ := h2 ub' k0
  rw [k8]
  refine Docs.Same.ahead ToDdb.grows_guarded ToDdb.unspaced.guard ds' ds _ b1 b' b2 (fun d h _ => ⟨hk d h, fun _ => ha d h⟩) hj
    (Docs.Of.same ds' ds (Docs.start hh k5 (Stub.Gives.faces x _ _ _ _ k7) ds' ds hj hsh k3 k4 (k1 ▸ hr)) k5' hd ha ?_) k6 k7 h2'
  intro ht hne c hc
  subst ht
  rcases hcut with h | h
  · exact absurd h hne
  · refine h c ?_
    rw [k1]
    exact ToDdb.docs_last (by simpa using hc) ds'

/-- Any writer. -/
theorem begins_or_line {turns F : Nat} {reader : Reader} {d : Dest} {rb cb : Bytes} {pretty ub item : Bool} {z : Bytes}
    (h : (convertNormalToDdb turns F reader ⟨⟨d.w.out, []⟩, []⟩ rb cb pretty false item).1.d.w.out <+: z) :
    (convertNormalToDdb turns F reader d rb cb pretty ub item).1.d.w.out <+: z ∨
      ∃ p, p <+: z ∧ (convertNormalToDdb turns F reader d rb cb pretty ub item).1.d.w.out = p ++ [10] := by
  rcases (C74_to_ddb_partial turns F reader d rb cb pretty ub item).2 with k | ⟨p, k1, k2⟩
  · exact .inl (List.IsPrefix.trans k h)
  · exact .inr ⟨p, List.IsPrefix.trans k1 h, k2⟩

/-- **C93, partial.** If the input is the beginning of a stream of JSON objects and arrays, then what `convert_normal_to_ddb` has written is a
beginning of these documents in DynamoDB JSON, with whatever result it returns; for any chunks, a buffer of at least eight bytes and any context
buffer. The input does not end in a digit (`hcut`), or it is all of the stream; numbers are no longer than the buffer (`hd`) and than 32 bytes (`hs`).
For `hk` and `hs` see C47. `hfit` says that the names on a path together are shorter than 64 KiB.

With a writer that fails it can be such a beginning and a line feed (`C74_newline`).

Full statement: without `Harmless`, for all JSON documents, all keys and all numbers, and for an input that ends anywhere. It is false of the
code: `C93_cut_number` and the witnesses of C47, C82 and C92. -/
theorem C93_output_partial (turns F : Nat) (reader : Reader) (rb cb out : Bytes) (pretty unbuffered item : Bool) (R : Room) (ds : Docs) (u tail : Bytes)
    (h8 : 8 ≤ rb.length) (hf : 2 * reader.size + 2 ≤ F) (hn : 2 * reader.pending.length + 3 ≤ turns) (hcl : reader.Clean) (hh : Harmless (.new reader rb))
    (hr : reader.pending ++ u = Docs.text ds tail) (hj : Docs.Json ds tail) (hfit : Docs.Fit R [nameTop] ds) (ha : ∀ d ∈ ds, ∀ tok, d.2 ≠ .atom tok)
    (hk : ∀ d ∈ ds, d.2.Keys Usual) (hs : ∀ d ∈ ds, Atoms Short d.2) (hd : ∀ d ∈ ds, Atoms (Within rb.length) d.2)
    (hcut : u = [] ∨ ∀ c, reader.pending.getLast? = some c → ¬ Digit c) :
    (convertNormalToDdb turns F reader ⟨⟨out, []⟩, []⟩ rb cb pretty unbuffered item).1.d.w.out <+: out ++ typedDocs item pretty ds ∧
    ∀ d : Dest, d.w.out = out →
      (convertNormalToDdb turns F reader d rb cb pretty unbuffered item).1.d.w.out <+: out ++ typedDocs item pretty ds ∨
      ∃ p, p <+: out ++ typedDocs item pretty ds ∧ (convertNormalToDdb turns F reader d rb cb pretty unbuffered item).1.d.w.out = p ++ [10] := by
  have key : ∀ ub, (convertNormalToDdb turns F reader ⟨⟨out, []⟩, []⟩ rb cb pretty ub item).1.d.w.out <+: out ++ typedDocs item pretty ds := by
    intro ub
    refine beginning_ddb (R := R) h8 hf hn hcl hh hr hj ha (fun d h => keys_weaken (fun k h => ((usual_iff k).1 h).1) _ (hk d h)) hd hcut fun ub' _ => ?_
    obtain ⟨c', f', e⟩ := ToDdb.docs_typed (C := ⟨item, ub', pretty⟩) R ds out false none nofun (fun l b v b' tok r h => absurd rfl (ha (b', .atom tok) (by rw [h]; simp) tok)) hfit hk
      (ToDdb.loose_cut_docs (P := True) (Docs.Json.loose hj) hs)
    exact ⟨_, e, rfl⟩
  refine ⟨key unbuffered, fun d e => ?_⟩
  subst e
  exact begins_or_line (key false)

/-- **C93, partial**, for more JSON: if `convert_normal_to_ddb` returns `Ok` on a stream of JSON objects and arrays, then on any beginning of this text,
in any chunks and with other buffers and another writer, it writes a beginning of what it has written for the whole. -/
theorem C93_agree_partial (turns turns' F F' : Nat) (reader reader' : Reader) (d d' : Dest) (rb rb' cb cb' : Bytes) (pretty unbuffered unbuffered' item : Bool)
    (u tail : Bytes) (ds : Docs) (h8 : 8 ≤ rb.length) (hf : 2 * reader.size + 2 ≤ F) (hn : 2 * reader.pending.length + 3 ≤ turns)
    (hcl : reader.Clean) (hh : Harmless (.new reader rb)) (hu' : Usable F' (.new reader' rb')) (hcl' : reader'.Clean)
    (hr : reader.pending ++ u = reader'.pending) (hr' : reader'.pending = Docs.text ds tail)
    (hj : Docs.Json ds tail) (ha : ∀ d ∈ ds, ∀ tok, d.2 ≠ .atom tok) (hk : ∀ d ∈ ds, d.2.Keys (· ≠ nameTop)) (hd : ∀ d ∈ ds, Atoms (Within rb.length) d.2)
    (hcut : u = [] ∨ ∀ c, reader.pending.getLast? = some c → ¬ Digit c) (ho : d.w.out = d'.w.out)
    (h' : (convertNormalToDdb turns' F' reader' d' rb' cb' pretty unbuffered' item).2 = .ok) :
    (convertNormalToDdb turns F reader d rb cb pretty unbuffered item).1.d.w.out <+:
      (convertNormalToDdb turns' F' reader' d' rb' cb' pretty unbuffered' item).1.d.w.out ∨
    ∃ p, p <+: (convertNormalToDdb turns' F' reader' d' rb' cb' pretty unbuffered' item).1.d.w.out ∧
      (convertNormalToDdb turns F reader d rb cb pretty unbuffered item).1.d.w.out = p ++ [10] := by
  obtain ⟨ds2, tail2, b2, k1, k2, k3, k4, k5⟩ := ToDdb.ok_docs hu' hcl' h'
  have e2 := Docs.unique hj (.inl (short_of ha _)) k2 k3 (hr'.symm.trans k1)
  rw [show Docs.scan ToDdb.guarded _ _ ds2 = _ from Unspaced.docs ToDdb.unspaced.guard _ _ e2, ← ho] at k4
  rw [k5]
  refine begins_or_line (beginning_ddb (R := ⟨cb'.length - 136, 34, 34⟩) (out := d.w.out) (ub := false) h8 hf hn hcl hh (hr.trans hr') hj ha hk hd hcut fun ub' e => ⟨b2, ?_, rfl⟩)
  rw [show ub' = false by rcases e with h | h <;> exact h]
  exact k4

/-! ### Examples -/

/-- `{"a":[true,"xy"]} [5] ` -/
def exBoxes : Docs :=
  [([], .obj [] (.cons [] [97] [] [] (.arr [] (.cons [] (.atom [116, 114, 117, 101]) [] (.cons [] (.atom [34, 120, 121, 34]) [] .nil))) [] .nil)),
   ([32], .arr [] (.cons [] (.atom [53]) [] .nil))]

theorem exBoxes_meets : Docs.Meets (rules wholeMode 8) exBoxes [32] :=
  ⟨spaces_nil, ⟨spaces_nil, spaces_nil, ⟨raw_ascii _ (by decide), by decide⟩, spaces_nil, spaces_nil,
      ⟨spaces_nil, spaces_nil, .true, spaces_nil, spaces_nil, .string [120, 121] (raw_ascii _ (by decide)) trivial, spaces_nil, trivial⟩, trivial, spaces_nil, trivial⟩, trivial, trivial,
    spaces_one, ⟨spaces_nil, spaces_nil, .number _ number_five (by decide), spaces_nil, trivial⟩, trivial, trivial, spaces_one⟩

theorem exBoxes_atoms {P : Bytes → Prop} (h1 : P [116, 114, 117, 101]) (h2 : P [34, 120, 121, 34]) (h3 : P [53]) : ∀ d ∈ exBoxes, Atoms P d.2 := by
  intro d hd
  simp only [exBoxes, List.mem_cons, List.not_mem_nil, or_false] at hd
  rcases hd with rfl | rfl
  · exact ⟨⟨h1, h2, trivial⟩, trivial⟩
  · exact ⟨h3, trivial⟩

/-- The first `n` bytes of the documents, byte by byte. -/
def exBegin (n : Nat) : Reader := ((Docs.text exBoxes [32]).take n).map fun c => .data c []

/-- The hypotheses of `C93_output_partial` and `C93_agree_partial`, and what is written, when the input ends in the literal, `{"a":[tr`, and in the string,
`{"a":[true,"x`. -/
example : (∀ n, n = 8 ∨ n = 13 → 2 * (exBegin n).size + 2 ≤ 200 ∧ 2 * (exBegin n).pending.length + 3 ≤ 200 ∧ (exBegin n).Clean ∧
      Harmless (.new (exBegin n) (List.replicate 8 0)) ∧ (exBegin n).pending ++ (Docs.text exBoxes [32]).drop n = Docs.text exBoxes [32] ∧
      ∀ c, (exBegin n).pending.getLast? = some c → ¬ Digit c) ∧
    Docs.Json exBoxes [32] ∧ Docs.Fit ⟨200 - 136, 34, 34⟩ [nameTop] exBoxes ∧ (∀ d ∈ exBoxes, ∀ tok, d.2 ≠ .atom tok) ∧ (∀ d ∈ exBoxes, d.2.Keys Usual) ∧
    (∀ d ∈ exBoxes, Atoms Short d.2) ∧ (∀ d ∈ exBoxes, Atoms (Within (List.replicate 8 (0 : Byte)).length) d.2) ∧
    typedDocs false false exBoxes = "{\"a\":{\"L\":[{\"BOOL\":true},{\"S\":\"xy\"}]}}\n{\"L\":[{\"N\":\"5\"}]}\n".toUTF8.toList ∧
    (convertNormalToDdb 200 200 (exBegin 8) ⟨⟨[], []⟩, []⟩ (List.replicate 8 0) (List.replicate 200 0) false false false).1.d.w.out =
      "{\"a\":{\"L\":[{\"BOOL\":true}".toUTF8.toList ∧
    (convertNormalToDdb 200 200 (exBegin 13) ⟨⟨[], []⟩, []⟩ (List.replicate 8 0) (List.replicate 200 0) false false false).1.d.w.out =
      "{\"a\":{\"L\":[{\"BOOL\":true},{\"S\":\"".toUTF8.toList ∧
    Usable 200 (.new (whole (Docs.text exBoxes [32])) (List.replicate 40 0)) ∧ (whole (Docs.text exBoxes [32])).Clean ∧
    (whole (Docs.text exBoxes [32])).pending = Docs.text exBoxes [32] ∧
    (convertNormalToDdb 60 200 (whole (Docs.text exBoxes [32])) ⟨⟨[], []⟩, []⟩ (List.replicate 40 0) (List.replicate 200 0) false false false).2 = .ok := by
  have hs : ∀ L tok, tok.length ≤ L → Within L tok := fun _ _ h _ => h
  refine ⟨?_, Docs.Meets.json exBoxes_meets, ?_, ?_, ?_, exBoxes_atoms (hs 32 _ (by decide)) (hs 32 _ (by decide)) (hs 32 _ (by decide)),
    exBoxes_atoms (hs _ _ (by decide)) (hs _ _ (by decide)) (hs _ _ (by decide)), by decide +kernel, by decide +kernel, by decide +kernel,
    usable_new _ _ _ (by decide) (by decide +kernel), by simp [whole, exBoxes, Docs.text, Val.text, Reader.Clean], by decide +kernel, by decide +kernel⟩
  · rintro n (rfl | rfl)
    · refine ⟨by decide +kernel, by decide +kernel, by simp [exBegin, exBoxes, Docs.text, Val.text, Members.text, Items.text, Reader.Clean], .inr (by decide +kernel),
        by decide +kernel, fun c h => ?_⟩
      have : (exBegin 8).pending.getLast? = some 114 := by decide +kernel
      rw [this] at h
      injection h with h
      subst h
      unfold Digit
      decide
    · refine ⟨by decide +kernel, by decide +kernel, by simp [exBegin, exBoxes, Docs.text, Val.text, Members.text, Items.text, Items.textMore, Reader.Clean], .inr (by decide +kernel),
        by decide +kernel, fun c h => ?_⟩
      have : (exBegin 13).pending.getLast? = some 120 := by decide +kernel
      rw [this] at h
      injection h with h
      subst h
      unfold Digit
      decide
  · simp only [exBoxes, Docs.Fit, Val.Fit, Items.Fit, Members.Fit]
    decide
  · intro d hd
    simp only [exBoxes, List.mem_cons, List.not_mem_nil, or_false] at hd
    rcases hd with rfl | rfl <;> exact nofun
  · intro d hd
    simp only [exBoxes, List.mem_cons, List.not_mem_nil, or_false] at hd
    rcases hd with rfl | rfl
    · exact ⟨by rw [usual_iff]; decide, ⟨trivial, trivial, trivial⟩, trivial⟩
    · exact ⟨trivial, trivial⟩

/-- `{"a":123456789} ` -/
def exCount : Docs := [([], .obj [] (.cons [] [97] [] [] (.atom [49, 50, 51, 52, 53, 54, 55, 56, 57]) [] .nil))]

theorem exCount_json : Docs.Json exCount [32] := by
  have hn : Number [49, 50, 51, 52, 53, 54, 55, 56, 57] := by
    refine ⟨[], [49, 50, 51, 52, 53, 54, 55, 56, 57], [], [], by simp, .inl rfl, .inr ⟨⟨by decide, ?_⟩, by decide⟩, .inl rfl, .inl rfl⟩
    intro c hc
    simp only [List.mem_cons, List.not_mem_nil, or_false] at hc
    unfold Digit
    rcases hc with rfl | rfl | rfl | rfl | rfl | rfl | rfl | rfl | rfl <;> decide
  exact Docs.Meets.json (show Docs.Meets (rules wholeMode 20) exCount [32] from
    ⟨spaces_nil, ⟨spaces_nil, spaces_nil, ⟨raw_ascii _ (by decide), by decide⟩, spaces_nil, spaces_nil, .number _ hn (by decide), trivial, spaces_nil, trivial⟩, trivial, trivial, spaces_one⟩)

/-- **C93 is false** for an input that ends in a number: `{"a":12` gives `{"a":{"N":"12"}`, which is not a beginning of the output for
`{"a":123456789}`. -/
theorem C93_cut_number : ∃ (reader : Reader) (u : Bytes), reader.Clean ∧ reader.pending ++ u = Docs.text exCount [32] ∧ Docs.Json exCount [32] ∧
    Harmless (.new reader (List.replicate 16 0)) ∧
    (convertNormalToDdb 40 100 reader ⟨⟨[], []⟩, []⟩ (List.replicate 16 0) (List.replicate 200 0) false false false).1.d.w.out =
      "{\"a\":{\"N\":\"12\"}".toUTF8.toList ∧
    typedDocs false false exCount = "{\"a\":{\"N\":\"123456789\"}}\n".toUTF8.toList :=
  ⟨[.data 123 [34, 97, 34, 58, 49, 50]], [51, 52, 53, 54, 55, 56, 57, 125, 32], by decide, by decide +kernel, exCount_json, .inr (by decide +kernel), by decide +kernel,
    by decide +kernel⟩

/-- **C93 is false** for a number that is longer than the buffer: with eight bytes, all of `{"a":123456789}` gives `{"a":{"N":"12345678"}` and an error. -/
theorem C93_long_number : ∃ reader : Reader, reader.Clean ∧ reader.pending = Docs.text exCount [32] ∧ Docs.Json exCount [32] ∧
    Harmless (.new reader (List.replicate 8 0)) ∧
    (convertNormalToDdb 40 100 reader ⟨⟨[], []⟩, []⟩ (List.replicate 8 0) (List.replicate 200 0) false false false).1.d.w.out =
      "{\"a\":{\"N\":\"12345678\"}".toUTF8.toList :=
  ⟨whole (Docs.text exCount [32]), by simp [whole, exCount, Docs.text, Val.text, Reader.Clean], by decide +kernel, exCount_json, .inr (by decide +kernel), by decide +kernel⟩

/-- **C93 is false** for a string on the top level: `"x` gives `{"S":"` and a line feed, which is not a beginning of the output for `"xy"`. -/
theorem C93_top_string : ∃ (reader : Reader) (u : Bytes), reader.Clean ∧ reader.pending ++ u = Docs.text [([], .atom [34, 120, 121, 34])] [32] ∧
    Docs.Json [([], .atom [34, 120, 121, 34])] [32] ∧ Harmless (.new reader (List.replicate 16 0)) ∧
    (convertNormalToDdb 40 100 reader ⟨⟨[], []⟩, []⟩ (List.replicate 16 0) (List.replicate 200 0) false false false).1.d.w.out =
      "{\"S\":\"\n".toUTF8.toList ∧
    typedDocs false false [([], .atom [34, 120, 121, 34])] = "{\"S\":\"xy\"}\n".toUTF8.toList :=
  ⟨[.data 34 [120]], [121, 34, 32], by decide, by decide +kernel,
    Docs.Meets.json (show Docs.Meets (rules wholeMode 20) [([], .atom [34, 120, 121, 34])] [32] from
      ⟨spaces_nil, .string [120, 121] (raw_ascii _ (by decide)) trivial, trivial, fun h => absurd h (not_number_string _), spaces_one⟩),
    .inr (by decide +kernel), by decide +kernel, by decide +kernel⟩

end Verif.Ddb
