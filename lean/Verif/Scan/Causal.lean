import Verif.Scan.Late
import Verif.Scan.Ahead
import Verif.RJiter.MoreProps

/-!
# `scan` with a reader that goes on where another one ends

As far as the reader has something, the two scans are the same. A call of the parser that meets the end has no value (but for a number): the first
scan stops there, and the second one may go on. So all that the first one does to the client, the second one does too.
-/

namespace Verif.Scan

open Verif.RJiter
open Verif.U8Pool (Pool PRes PoolError)

variable {β : Type}

/-- The reader goes on with `R` where it would end. -/
def St.more (R : Reader) (st : St β) : St β := { st with rj := st.rj.more R }

/-- The results of a function: the same; or the first call cannot go on, and the second one has brought the client at least as far. `Go` says which
results go on. -/
def Apart {ρ : Type} (R : Reader) (F : Nat) (Le : β → β → Prop) (Go : ρ → Prop) (x y : St β × ρ) : Prop :=
  (y = (x.1.more R, x.2) ∧ (Go x.2 → Primed F x.1.rj)) ∨ (¬ Go x.2 ∧ Le x.1.baton y.1.baton)

/-- The same for an action. -/
def ApartAct (R : Reader) (F : Nat) (Le : β → β → Prop) (x y : (RJ × β) × Acted) : Prop :=
  (y = ((x.1.1.more R, x.1.2), x.2) ∧ (x.2 = .op .none ∨ x.2 = .op .valueIsConsumed → Primed F x.1.1)) ∨
    ((∃ m, x.2 = .op (.error m)) ∧ Le x.1.2 y.1.2)

/-- Callbacks that only add to what they have done (`Le` says what that is), and whose actions do the same with a reader that ends and with one that
goes on, up to there. -/
structure Adds (cb : Callbacks β) (R : Reader) (F : Nat) (Le : β → β → Prop) : Prop where
  refl : ∀ b, Le b b
  trans : ∀ a b c, Le a b → Le b c → Le a c
  serves : ∀ b, Serves cb (fun _ => True) (Le b)
  find : ∀ (p : Pseudo) (c : Ctx) (b : β) (s : RJ), Primed F s →
    ∀ act, (cb.find p c b).2 = some act → ApartAct R F Le (act s (cb.find p c b).1) (act (s.more R) (cb.find p c b).1)

theorem invariant_true : Invariant (fun _ => True) := fun _ _ _ _ => trivial

section
variable {cb : Callbacks β} {R : Reader} {F : Nat} {Le : β → β → Prop} {opt : Options}

theorem Adds.start (hC : Adds cb R F Le) (st : St β) : In (fun _ => True) (Le st.baton) st := ⟨trivial, hC.refl _⟩

theorem callAction_apart (hC : Adds cb R F Le) (p : Pseudo) {st : St β} (hr : Primed F st.rj) :
    Apart R F Le After.Go (callAction cb p st) (callAction cb p (st.more R)) := by
  have h := hC.find p (.of st.pool) st.baton st.rj hr
  unfold callAction
  rw [show (st.more R).pool = st.pool from rfl, show (st.more R).baton = st.baton from rfl, show (st.more R).rj = st.rj.more R from rfl]
  rcases hf : cb.find p (.of st.pool) st.baton with ⟨b, _ | act⟩
  · exact .inl ⟨rfl, fun _ => hr⟩
  · rw [hf] at h
    rcases h act rfl with ⟨h1, h2⟩ | ⟨⟨m, h2⟩, h3⟩
    · simp only
      rw [h1]
      rcases hx : act st.rj b with ⟨⟨s', b'⟩, (_ | _ | m) | _ | _⟩
      · rw [hx] at h2; exact .inl ⟨rfl, fun _ => h2 (.inl rfl)⟩
      · rw [hx] at h2; exact .inl ⟨rfl, fun _ => h2 (.inr rfl)⟩
      all_goals exact .inl ⟨rfl, fun h => by rcases h with h | h <;> cases h⟩
    · simp only
      rcases hx : act st.rj b with ⟨⟨s', b'⟩, r⟩
      rw [hx] at h2 h3
      simp only at h2 h3
      subst h2
      refine .inr ⟨(fun h => by rcases h with h | h <;> cases h), ?_⟩
      revert h3
      rcases hy : act (st.rj.more R) b with ⟨⟨s2, b2⟩, (_ | _ | m) | _ | _⟩ <;> exact id

theorem endStep_more (p : Pseudo) (c : Ctx) (st : St β) (pool : Pool) :
    endStep cb p c (st.more R) pool = ((endStep cb p c st pool).1.more R, (endStep cb p c st pool).2) := by
  unfold endStep
  rw [show (st.more R).baton = st.baton from rfl]
  rcases cb.findEnd p c st.baton with ⟨b, _ | act⟩
  · rfl
  · simp only [runEnd]
    rcases act b with ⟨b', _ | m⟩ <;> rfl

theorem topPos_more (st : St β) (msg : String) : topPos (st.more R) msg = topPos st msg := rfl

/-- The code behind a call. -/
theorem Apart.andThen {ρ σ : Type} {Go : ρ → Prop} {Go' : σ → Prop} {x y : St β × ρ} (h : Apart R F Le Go x y) (hC : Adds cb R F Le)
    {g : St β × ρ → St β × σ}
    (hgo : ∀ st r, Go r → Primed F st.rj → Apart R F Le Go' (g (st, r)) (g (st.more R, r)))
    (hstop : ∀ st r, ¬ Go r → (g (st, r)).1.baton = st.baton ∧ ¬ Go' (g (st, r)).2)
    (hgrow : ∀ st r, Le st.baton (g (st, r)).1.baton) : Apart R F Le Go' (g x) (g y) := by
  rcases x with ⟨st, r⟩
  rcases h with ⟨rfl, h⟩ | ⟨h1, h2⟩
  · by_cases hr : Go r
    · exact hgo st r hr (h hr)
    · refine .inr ⟨(hstop st r hr).2, ?_⟩
      rw [(hstop st r hr).1]
      exact hgrow (st.more R) r
  · rcases y with ⟨st2, r2⟩
    refine .inr ⟨(hstop st r h1).2, ?_⟩
    rw [(hstop st r h1).1]
    exact hC.trans _ _ _ h2 (hgrow st2 r2)

theorem endStep_apart {σ : Type} {Go : σ → Prop} (p : Pseudo) (c : Ctx) (st : St β) (pool : Pool) (hr : Primed F st.rj)
    {g : St β × Option SErr → St β × σ}
    (hgo : ∀ st, Primed F st.rj → Apart R F Le Go (g (st, none)) (g (st.more R, none)))
    (hstop : ∀ st e, g (st.more R, some e) = ((g (st, some e)).1.more R, (g (st, some e)).2) ∧ ¬ Go (g (st, some e)).2) :
    Apart R F Le Go (g (endStep cb p c st pool)) (g (endStep cb p c (st.more R) pool)) := by
  rw [endStep_more]
  have hj := endStep_rj (cb := cb) p c st pool
  rw [← hj] at hr
  clear hj
  revert hr
  rcases endStep cb p c st pool with ⟨st2, _ | e⟩ <;> intro hr
  · exact hgo st2 hr
  · exact .inl ⟨(hstop st2 e).1, fun h => absurd h (hstop st2 e).2⟩

/-- A parser call, and the code behind it. -/
theorem stays_apart {α ρ : Type} {Go : ρ → Prop} {s : RJ} {x y : RJ × Res α} {m : Nat} (hw : RJ.Stays R x y) (hrun : s.Runs m x)
    (hr : Primed F s) {g : RJ × Res α → St β × ρ}
    (hok : ∀ s' v, Primed F s' → Apart R F Le Go (g (s', .ok v)) (g (s'.more R, .ok v)))
    (herr : ∀ s' e, ¬ Go (g (s', .err e)).2 ∧ Le (g (s', .err e)).1.baton (g y).1.baton) : Apart R F Le Go (g x) (g y) := by
  rcases x with ⟨s', v | e | _ | _⟩
  · obtain ⟨n, _, hm⟩ := hrun
    rw [hw s' v rfl]
    exact hok _ _ (hr.moved hm)
  · exact .inr (herr s' e)
  · exact hrun.elim
  · exact hrun.elim

theorem handleKey_apart (hC : Adds cb R F Le) (begin : Bool) {st : St β} (hr : Primed F st.rj) :
    Apart R F Le SRes.Go (handleKey F cb begin st) (handleKey F cb begin (st.more R)) := by
  have hin := (handleKey_in (F := F) invariant_true (hC.serves st.baton) begin (hC.start (st.more R))).2
  rw [handleKey_eq] at hin
  rw [handleKey_eq, handleKey_eq]
  have hl : 2 ≤ st.rj.b.buf.length := by have := hr.usable.len; omega
  have hrun : st.rj.Runs 1 (if begin then st.rj.nextObjectBytes F else st.rj.nextKeyBytes F) := by
    split
    · exact RJ.nextObjectBytes_runs hr.usable.sync hl hr.usable.fuel
    · exact RJ.nextKeyBytes_runs hr.usable.sync hl hr.usable.fuel
  have hw : RJ.Stays R (if begin then st.rj.nextObjectBytes F else st.rj.nextKeyBytes F)
      (if begin then (st.more R).rj.nextObjectBytes F else (st.more R).rj.nextKeyBytes F) := by
    obtain ⟨_, _, _, _, _, _, _, _, _, _, _, _, _, _, h1, _, h2⟩ := RJ.C109_calls R F hr.usable.sync
    split
    · exact h1
    · exact h2
  refine stays_apart hw hrun hr (g := fun x => match x with
      | (rj, .ok none) =>
        match endStep cb .object (.of st.pool) { st with rj := rj } st.pool with
        | (st, some e) => (st, .err e)
        | (st, none) => (st, topPos st "Context stack is empty when ending object")
      | (rj, .ok (some key)) =>
        match st.pool.pushAssoc posLayout [Pos.objectMiddle.byte] key with
        | (p, .ok _) =>
          match callAction cb .none { st with rj := rj, pool := p } with
          | (st, .go) => (st, .ok .objectBetweenKV)
          | (st, .consumed) => (st, .ok .objectMiddle)
          | (st, .leave r) => (st, r.cast)
        | (p, .err e) => ({ st with rj := rj, pool := p }, .err (keyPushError e rj.currentIndex))
        | (p, .panic) => ({ st with rj := rj, pool := p }, .panic)
      | (rj, .err e) => ({ st with rj := rj }, .err (.rjiter e))
      | (rj, .panic) => ({ st with rj := rj }, .panic)
      | (rj, .diverge) => ({ st with rj := rj }, .diverge)) ?_ ?_
  · intro s' v hs'
    rcases v with _ | key
    · exact endStep_apart .object (.of st.pool) { st with rj := s' } st.pool hs'
        (σ := SRes Pos) (g := fun x => match x with
          | (st, some e) => (st, .err e)
          | (st, none) => (st, topPos st "Context stack is empty when ending object"))
        (fun st2 hs2 => .inl ⟨rfl, fun _ => hs2⟩) (fun st2 e => ⟨rfl, fun h => by obtain ⟨_, h⟩ := h; cases h⟩)
    · simp only
      rcases st.pool.pushAssoc posLayout [Pos.objectMiddle.byte] key with ⟨p, _ | e | _⟩
      · refine (callAction_apart hC .none (st := { st with rj := s', pool := p }) hs').andThen hC
          (σ := SRes Pos) (g := fun x => match x with
            | (st, .go) => (st, .ok .objectBetweenKV)
            | (st, .consumed) => (st, .ok .objectMiddle)
            | (st, .leave r) => (st, r.cast)) ?_ ?_ ?_
        · intro st2 r hg hr2
          rcases hg with rfl | rfl <;> exact .inl ⟨rfl, fun _ => hr2⟩
        · intro st2 r hg
          rcases r with _ | _ | r
          · exact absurd (.inl rfl) hg
          · exact absurd (.inr rfl) hg
          · exact ⟨rfl, no_cast⟩
        · intro st2 r
          rcases r with _ | _ | r <;> exact hC.refl _
      · exact .inl ⟨rfl, fun _ => hs'⟩
      · exact .inl ⟨rfl, fun _ => hs'⟩
  · intro s' e
    exact ⟨(fun h => by obtain ⟨_, h⟩ := h; cases h), hin⟩

theorem handleObject_apart (hC : Adds cb R F Le) (pos : Pos) {st : St β} (hr : Primed F st.rj) :
    Apart R F Le SRes.Go (handleObject F cb pos st) (handleObject F cb pos (st.more R)) := by
  rw [handleObject_eq, handleObject_eq]
  by_cases hp : pos = .objectBegin
  · simp only [hp, if_true]
    refine (callAction_apart hC .object hr).andThen hC
      (σ := SRes Pos) (g := fun x => match x with
        | (st, .go) => handleKey F cb true st
        | (st, .consumed) => (st, topPos st "Context stack is empty when handling ValueIsConsumed")
        | (st, .leave r) => (st, r.cast)) ?_ ?_ ?_
    · intro st2 r hg hr2
      rcases hg with rfl | rfl
      · exact handleKey_apart hC true hr2
      · exact .inl ⟨rfl, fun _ => hr2⟩
    · intro st2 r hg
      rcases r with _ | _ | r
      · exact absurd (.inl rfl) hg
      · exact absurd (.inr rfl) hg
      · exact ⟨rfl, no_cast⟩
    · intro st2 r
      rcases r with _ | _ | r
      · exact (handleKey_in (F := F) invariant_true (hC.serves st2.baton) true (hC.start st2)).2
      · exact hC.refl _
      · exact hC.refl _
  · simp only [hp, if_false]
    rw [show (st.more R).pool = st.pool from rfl]
    have key : ∀ p : Pool, Apart R F Le SRes.Go
        (match endStep cb .none (.of st.pool) st p with
          | (st, some e) => (st, .err e)
          | (st, none) => handleKey F cb false st)
        (match endStep cb .none (.of st.pool) (st.more R) p with
          | (st, some e) => (st, .err e)
          | (st, none) => handleKey F cb false st) := by
      intro p
      exact endStep_apart .none (.of st.pool) st p hr
        (σ := SRes Pos) (g := fun x => match x with
          | (st, some e) => (st, .err e)
          | (st, none) => handleKey F cb false st)
        (fun st2 hs2 => handleKey_apart hC false hs2) (fun st2 e => ⟨rfl, fun h => by obtain ⟨_, h⟩ := h; cases h⟩)
    rcases st.pool.popAssoc posLayout with ⟨p, _ | _ | _⟩
    · exact key p
    · exact key p
    · exact .inl ⟨rfl, fun h => by obtain ⟨_, h⟩ := h; cases h⟩

theorem handleItem_apart (hC : Adds cb R F Le) (begin : Bool) {st : St β} (hr : Primed F st.rj) :
    Apart R F Le SRes.Go (handleItem F cb begin st) (handleItem F cb begin (st.more R)) := by
  have hin := (handleItem_in (F := F) invariant_true (hC.serves st.baton) begin (hC.start (st.more R))).2
  rw [handleItem_eq] at hin
  rw [handleItem_eq, handleItem_eq]
  have hl : 2 ≤ st.rj.b.buf.length := by have := hr.usable.len; omega
  have hrun : st.rj.Runs 1 (if begin then st.rj.knownArray F else st.rj.arrayStep F) := by
    split
    · exact RJ.knownArray_runs hr.usable.sync hl hr.usable.fuel
    · exact RJ.arrayStep_runs hr.usable.sync hl hr.usable.fuel
  have hw : RJ.Stays R (if begin then st.rj.knownArray F else st.rj.arrayStep F)
      (if begin then (st.more R).rj.knownArray F else (st.more R).rj.arrayStep F) := by
    obtain ⟨_, _, _, _, _, _, _, _, _, h1, _, h2, _⟩ := RJ.C109_calls R F hr.usable.sync
    split
    · exact h1
    · exact h2
  refine stays_apart hw hrun hr (ρ := SRes (Option Byte × Pos)) (g := fun x => match x with
      | (rj, .ok none) =>
        match st.pool.popAssoc posLayout with
        | (p, .ok (some _)) =>
          match endStep cb .array (.of p) { st with rj := rj, pool := p } p with
          | (st, some e) => (st, .err e)
          | (st, none) =>
            match topPos st "Context stack is empty when ending array" with
            | .ok pos => (st, .ok (none, pos))
            | .err e => (st, .err e)
            | .panic => (st, .panic)
            | .diverge => (st, .diverge)
        | (p, .ok none) =>
          ({ st with rj := rj, pool := p }, .err (.internal rj.currentIndex "Context stack is empty when ending array"))
        | (p, _) => ({ st with rj := rj, pool := p }, .panic)
      | (rj, .ok (some c)) => ({ st with rj := rj }, .ok (some c, .arrayMiddle))
      | (rj, .err e) => ({ st with rj := rj }, .err (.rjiter e))
      | (rj, .panic) => ({ st with rj := rj }, .panic)
      | (rj, .diverge) => ({ st with rj := rj }, .diverge)) ?_ ?_
  · intro s' v hs'
    rcases v with _ | c
    · simp only
      rcases st.pool.popAssoc posLayout with ⟨p, (_ | _) | _ | _⟩
      · exact .inl ⟨rfl, fun _ => hs'⟩
      · refine endStep_apart .array (.of p) { st with rj := s', pool := p } p hs'
          (σ := SRes (Option Byte × Pos)) (g := fun x => match x with
            | (st, some e) => (st, .err e)
            | (st, none) =>
              match topPos st "Context stack is empty when ending array" with
              | .ok pos => (st, .ok (none, pos))
              | .err e => (st, .err e)
              | .panic => (st, .panic)
              | .diverge => (st, .diverge))
          (fun st2 hs2 => ?_) (fun st2 e => ⟨rfl, fun h => by obtain ⟨_, h⟩ := h; cases h⟩)
        simp only [topPos_more]
        rcases topPos st2 "Context stack is empty when ending array" with _ | _ | _ | _ <;> exact .inl ⟨rfl, fun _ => hs2⟩
      · exact .inl ⟨rfl, fun _ => hs'⟩
      · exact .inl ⟨rfl, fun _ => hs'⟩
    · exact .inl ⟨rfl, fun _ => hs'⟩
  · intro s' e
    exact ⟨(fun h => by obtain ⟨_, h⟩ := h; cases h), hin⟩

theorem handleArray_apart (hC : Adds cb R F Le) (pos : Pos) {st : St β} (hr : Primed F st.rj) :
    Apart R F Le SRes.Go (handleArray F cb pos st) (handleArray F cb pos (st.more R)) := by
  unfold handleArray
  by_cases hp : pos = .arrayBegin
  · simp only [hp, if_true]
    refine (callAction_apart hC .array hr).andThen hC
      (σ := SRes (Option Byte × Pos)) (g := fun x => match x with
        | (st, .go) =>
          match st.pool.pushAssoc posLayout [Pos.arrayMiddle.byte] nameArray with
          | (p, .ok _) => handleItem F cb true { st with pool := p }
          | (p, .err _) => ({ st with pool := p }, .err (.maxNesting st.rj.currentIndex p.len))
          | (p, .panic) => ({ st with pool := p }, .panic)
        | (st, .consumed) =>
          match topPos st "Context stack is empty when handling ValueIsConsumed in array" with
          | .ok pos => (st, .ok (none, pos))
          | .err e => (st, .err e)
          | .panic => (st, .panic)
          | .diverge => (st, .diverge)
        | (st, .leave r) => (st, r.cast)) ?_ ?_ ?_
    · intro st2 r hg hr2
      rcases hg with rfl | rfl
      · simp only
        rw [show (st2.more R).pool = st2.pool from rfl]
        rcases st2.pool.pushAssoc posLayout [Pos.arrayMiddle.byte] nameArray with ⟨p, _ | _ | _⟩
        · exact handleItem_apart hC true (st := { st2 with pool := p }) hr2
        · exact .inl ⟨rfl, fun _ => hr2⟩
        · exact .inl ⟨rfl, fun _ => hr2⟩
      · simp only [topPos_more]
        rcases topPos st2 "Context stack is empty when handling ValueIsConsumed in array" with _ | _ | _ | _ <;>
          exact .inl ⟨rfl, fun _ => hr2⟩
    · intro st2 r hg
      rcases r with _ | _ | r
      · exact absurd (.inl rfl) hg
      · exact absurd (.inr rfl) hg
      · exact ⟨rfl, no_cast⟩
    · intro st2 r
      rcases r with _ | _ | r
      · simp only
        rcases st2.pool.pushAssoc posLayout [Pos.arrayMiddle.byte] nameArray with ⟨p, _ | _ | _⟩
        · exact (handleItem_in (F := F) invariant_true (hC.serves st2.baton) true (hC.start { st2 with pool := p })).2
        · exact hC.refl _
        · exact hC.refl _
      · simp only
        rcases topPos st2 "Context stack is empty when handling ValueIsConsumed in array" with _ | _ | _ | _ <;> exact hC.refl _
      · exact hC.refl _
  · simp only [hp, if_false]
    exact handleItem_apart hC false hr

/-- A number is found without the end only if it does not end with the input. -/
theorem nextNumber_stays {s : RJ} (R : Reader) (hr : Primed F s) : RJ.Stays R (s.nextNumberBytes F) ((s.more R).nextNumberBytes F) := by
  intro s' v hv
  refine (RJ.C109_values_partial R F hr.usable.sync).1 s' v hv ?_
  intro hrest
  obtain ⟨ws, t, e1, -, e3, e4, -⟩ := C44_next_number s F hr.usable.sync (by have := hr.usable.len; omega) hr.usable.fuel s' v hv
  have ht : t = [] := by
    have := e4.rest
    rw [hrest, e1, ← List.append_assoc, ← List.length_append, List.drop_left] at this
    exact this.symm
  obtain ⟨c, hc, hd⟩ := number_digit e3
  refine hr.capped c ?_ hd
  rw [e1, ht, List.append_nil]
  exact last_append hc

theorem skipBasic_apart (c : Byte) {s s' : RJ} (hr : Primed F s) (h : skipBasic F c s = (s', .ok ())) :
    skipBasic F c (s.more R) = (s'.more R, .ok ()) ∧ Primed F s' := by
  have hl : 2 ≤ s.b.buf.length := by have := hr.usable.len; omega
  have hdrop : ∀ {α : Type} {m : Nat} {x y : RJ × Res α}, s.Runs m x → RJ.Stays R x y → dropValue x = (s', .ok ()) →
      dropValue y = (s'.more R, .ok ()) ∧ Primed F s' := by
    intro α m x y hx hw h
    rcases x with ⟨s1, v | e | _ | _⟩
    · obtain ⟨n, -, hm⟩ := hx
      rw [hw s1 v rfl]
      simp only [dropValue, Prod.mk.injEq] at h ⊢
      rw [← h.1]
      exact ⟨⟨rfl, trivial⟩, hr.moved hm⟩
    all_goals simp [dropValue] at h
  obtain ⟨-, h1, -, h2, -⟩ := RJ.C109_calls R F hr.usable.sync
  unfold skipBasic at h ⊢
  by_cases c1 : c = 34
  · simp only [c1, if_true] at h ⊢
    refine hdrop (RJ.handleLong_runs .raw ⟨[], []⟩ hr.usable.sync hr.usable.len hr.usable.fuel) ?_ h
    intro s1 v hx
    rcases RJ.handleLong_meets R .raw F s ⟨[], []⟩ with h | h
    · change ((RJ.handleLong .raw F (s.more R) ⟨[], []⟩).1.1, (RJ.handleLong .raw F (s.more R) ⟨[], []⟩).2) = _
      simp only [Prod.mk.injEq] at hx
      rw [h, ← hx.1, ← hx.2]
    · simp only [Prod.mk.injEq] at hx
      exact absurd hx.2 (h v)
  · simp only [c1, if_false] at h ⊢
    by_cases c2 : c = 110
    · simp only [c2, if_true] at h ⊢
      exact hdrop (RJ.knownNull_runs hr.usable.sync hl hr.usable.fuel) h1 h
    · simp only [c2, if_false] at h ⊢
      by_cases c3 : c = 116 ∨ c = 102
      · simp only [c3, if_true] at h ⊢
        exact hdrop (RJ.knownBool_runs c hr.usable.sync hl hr.usable.fuel) (h2 c) h
      · simp only [c3, if_false] at h ⊢
        have hx := RJ.nextNumberBytes_runs hr.usable.sync hl hr.usable.fuel
        have hw := nextNumber_stays R hr
        generalize s.nextNumberBytes F = x at hx hw h
        rcases x with ⟨s1, v | e | _ | _⟩
        · obtain ⟨n, -, hm⟩ := hx
          rw [hw s1 v rfl]
          simp only [Prod.mk.injEq] at h ⊢
          rw [← h.1]
          exact ⟨⟨rfl, trivial⟩, hr.moved hm⟩
        all_goals simp at h

theorem skipStep_baton (c : Byte) (pos : Pos) (rj : RJ) (b : β) (pool : Pool) : (skipStep F opt c pos rj b pool).1.baton = b := by
  unfold skipStep
  rcases skipBasic F c rj with ⟨s', _ | e | _ | _⟩
  · rfl
  · simp only
    split
    · rcases skipSse F opt.sseTokens s' with ⟨s2, _ | _ | _ | _ | _⟩ <;> rfl
    · rfl
  · rfl
  · rfl

theorem onValue_apart (hC : Adds cb R F Le) (hno : opt.sseTokens = []) (c : Byte) (pos : Pos) {st : St β} (hr : Primed F st.rj) :
    Apart R F Le Step.Go (onValue F cb opt c pos st) (onValue F cb opt c pos (st.more R)) := by
  rw [onValue_eq, onValue_eq]
  by_cases c1 : c = 91
  · simp only [c1, if_true]; exact .inl ⟨rfl, fun _ => hr⟩
  · simp only [c1, if_false]
    by_cases c2 : c = 123
    · simp only [c2, if_true]; exact .inl ⟨rfl, fun _ => hr⟩
    · simp only [c2, if_false]
      refine (callAction_apart hC .atom hr).andThen hC
        (σ := Step) (g := fun x => match x with
          | (st, .go) => skipStep F opt c pos st.rj st.baton st.pool
          | (st, .consumed) => (st, .next pos)
          | (st, .leave r) => (st, .done r.cast)) ?_ ?_ ?_
      · intro st2 r hg hr2
        rcases hg with rfl | rfl
        · simp only
          rw [show (st2.more R).rj = st2.rj.more R from rfl, show (st2.more R).baton = st2.baton from rfl,
            show (st2.more R).pool = st2.pool from rfl]
          rcases hx : skipBasic F c st2.rj with ⟨s', _ | e | _ | _⟩
          · obtain ⟨h1, h2⟩ := skipBasic_apart (R := R) c hr2 hx
            unfold skipStep
            rw [hx, h1]
            exact .inl ⟨rfl, fun _ => h2⟩
          all_goals
            refine .inr ⟨?_, ?_⟩
            · unfold skipStep
              rw [hx]
              simp only [hno, skipSse]
              first
                | exact step_not_go
                | (split <;> exact step_not_go)
            · rw [skipStep_baton, skipStep_baton]
              exact hC.refl _
        · exact .inl ⟨rfl, fun _ => hr2⟩
      · intro st2 r hg
        rcases r with _ | _ | r
        · exact absurd (.inl rfl) hg
        · exact absurd (.inr rfl) hg
        · exact ⟨rfl, step_not_go⟩
      · intro st2 r
        rcases r with _ | _ | r
        · simp only [skipStep_baton]
          exact hC.refl _
        · exact hC.refl _
        · exact hC.refl _

theorem turn_apart (hC : Adds cb R F Le) (hno : opt.sseTokens = []) (pos : Pos) {st : St β} (hr : Primed F st.rj) :
    Apart R F Le Step.Go (turn F cb opt pos st) (turn F cb opt pos (st.more R)) := by
  have hin := (turn_in (F := F) (opt := opt) invariant_true (hC.serves st.baton) pos (hC.start (st.more R))).2
  by_cases c1 : pos = .objectBegin ∨ pos = .objectMiddle
  · unfold turn
    simp only [c1, if_true]
    refine (handleObject_apart hC pos hr).andThen hC
      (σ := Step) (g := fun x => match x with
        | (st, .ok p) => (st, .next p)
        | (st, .err e) => (st, .done (.err e))
        | (st, .panic) => (st, .done .panic)
        | (st, .diverge) => (st, .done .diverge)) ?_ ?_ ?_
    · intro st2 r hg hr2
      obtain ⟨p, rfl⟩ := hg
      exact .inl ⟨rfl, fun _ => hr2⟩
    · intro st2 r hg
      rcases r with p | _ | _ | _
      · exact absurd ⟨_, rfl⟩ hg
      all_goals exact ⟨rfl, step_not_go⟩
    · intro st2 r
      rcases r with _ | _ | _ | _ <;> exact hC.refl _
  · by_cases c2 : pos = .arrayBegin ∨ pos = .arrayMiddle
    · unfold turn
      simp only [c1, c2, if_true, if_false]
      refine (handleArray_apart hC pos hr).andThen hC
        (σ := Step) (g := fun x => match x with
          | (st, .ok (some c, p)) =>
            if p = .arrayMiddle then onValue F cb opt c .arrayMiddle st
            else (st, .done (.err (.internal st.rj.currentIndex "Unexpected position from handle_array")))
          | (st, .ok (none, p)) => (st, .next p)
          | (st, .err e) => (st, .done (.err e))
          | (st, .panic) => (st, .done .panic)
          | (st, .diverge) => (st, .done .diverge)) ?_ ?_ ?_
      · intro st2 r hg hr2
        obtain ⟨⟨_ | c, p⟩, rfl⟩ := hg
        · exact .inl ⟨rfl, fun _ => hr2⟩
        · simp only
          split
          · exact onValue_apart hC hno c .arrayMiddle hr2
          · exact .inl ⟨rfl, fun _ => hr2⟩
      · intro st2 r hg
        rcases r with p | _ | _ | _
        · exact absurd ⟨_, rfl⟩ hg
        all_goals exact ⟨rfl, step_not_go⟩
      · intro st2 r
        rcases r with ⟨_ | c, p⟩ | _ | _ | _
        · exact hC.refl _
        · simp only
          split
          · exact (onValue_in (F := F) (opt := opt) invariant_true (hC.serves st2.baton) c .arrayMiddle (hC.start st2)).2
          · exact hC.refl _
        all_goals exact hC.refl _
    · have hl : 2 ≤ st.rj.b.buf.length := by have := hr.usable.len; omega
      have hrun := RJ.peek_runs hr.usable.sync hl hr.usable.fuel
      have hw := (RJ.C109_calls R F hr.usable.sync).1
      rcases hx : st.rj.peek F with ⟨s', c | e | _ | _⟩
      · rw [hx] at hrun
        obtain ⟨n, -, hm⟩ := hrun
        have h := hw s' c hx
        unfold turn
        simp only [c1, c2, if_false]
        rw [hx, show (st.more R).rj = st.rj.more R from rfl, h]
        exact onValue_apart hC hno c _ (st := { st with rj := s' }) (hr.moved hm)
      · refine .inr ⟨?_, ?_⟩
        · unfold turn
          simp only [c1, c2, if_false]
          rw [hx]
          simp only
          repeat (first | exact step_not_go | split)
        · have : (turn F cb opt pos st).1.baton = st.baton := by
            unfold turn
            simp only [c1, c2, if_false]
            rw [hx]
            simp only
            repeat (first | rfl | split)
          rw [this]
          exact hin
      · rw [hx] at hrun; exact hrun.elim
      · rw [hx] at hrun; exact hrun.elim

theorem mainLoop_apart (hC : Adds cb R F Le) (hno : opt.sseTokens = []) : ∀ (n : Nat) (b : Bool) (pos : Pos) (st : St β), Primed F st.rj →
    Le (mainLoop F cb opt n b pos st).1.baton (mainLoop F cb opt n b pos (st.more R)).1.baton := by
  intro n
  induction n with
  | zero => intro b pos st _; exact hC.refl _
  | succ n ih =>
    intro b pos st hr
    unfold mainLoop
    split
    · exact hC.refl _
    · rcases turn_apart hC hno pos hr with ⟨h1, h2⟩ | ⟨h1, h2⟩
      · rw [h1]
        revert h2
        rcases turn F cb opt pos st with ⟨st2, p | r⟩ <;> intro h2
        · exact ih true p st2 (h2 ⟨_, rfl⟩)
        · exact hC.refl _
      · revert h1 h2
        rcases turn F cb opt pos st with ⟨st2, p | r⟩ <;> rcases turn F cb opt pos (st.more R) with ⟨st3, p3 | r3⟩ <;> intro h1 h2
        · exact absurd ⟨_, rfl⟩ h1
        · exact absurd ⟨_, rfl⟩ h1
        · exact hC.trans _ _ _ h2 (mainLoop_in (F := F) (opt := opt) invariant_true (hC.serves st3.baton) n true p3 (hC.start st3)).2
        · exact h2

theorem scan_apart (hC : Adds cb R F Le) (hno : opt.sseTokens = []) (turns : Nat) {st : St β} (hr : Primed F st.rj) :
    Le (scan turns F cb opt st).1.baton (scan turns F cb opt (st.more R)).1.baton := by
  unfold scan
  rw [show (st.more R).pool = st.pool from rfl]
  rcases st.pool.pushAssoc posLayout [Pos.top.byte] nameTop with ⟨p, _ | _ | _⟩
  · exact mainLoop_apart hC hno turns false .top { st with pool := p } hr
  · exact hC.refl _
  · exact hC.refl _

end

end Verif.Scan
