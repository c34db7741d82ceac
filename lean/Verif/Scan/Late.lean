import Verif.RJiter.Late
import Verif.RJiter.PropsValue
import Verif.Scan.Returns

/-!
# `scan` with a reader that fails where another one ends

As far as the reader has something, the two scans are the same. A call of the parser that meets the end has no value (but for a number), and
neither has the one that meets the failure; so the callbacks have been called in the same way up to there.
-/

namespace Verif.Scan

open Verif.RJiter
open Verif.U8Pool (Pool PRes PoolError)

variable {β : Type}

/-! ## Numbers -/

theorem digits_last {l : Bytes} (h : Digits l) : ∃ c, l.getLast? = some c ∧ Digit c := by
  obtain ⟨h0, h1⟩ := h
  exact ⟨l.getLast h0, List.getLast?_eq_some_getLast h0, h1 _ (List.getLast_mem h0)⟩

theorem last_append {a b : Bytes} {c : Byte} (h : b.getLast? = some c) : (a ++ b).getLast? = some c := by
  rw [List.getLast?_append, h]; rfl

/-- A number ends with a digit. -/
theorem number_digit {l : Bytes} (h : Number l) : ∃ c, l.getLast? = some c ∧ Digit c := by
  obtain ⟨m, i, f, e, rfl, -, hi, hf, he⟩ := h
  rcases he with rfl | ⟨x, sg, ds, rfl, -, -, hd⟩
  · rcases hf with rfl | ⟨ds, rfl, hd⟩
    · have hd : ∃ c, i.getLast? = some c ∧ Digit c := by
        rcases hi with rfl | ⟨hd, -⟩
        · exact ⟨48, rfl, by constructor <;> decide⟩
        · exact digits_last hd
      obtain ⟨c, h1, h2⟩ := hd
      exact ⟨c, by simpa using last_append h1, h2⟩
    · obtain ⟨c, h1, h2⟩ := digits_last hd
      refine ⟨c, ?_, h2⟩
      have : m ++ (i ++ (46 :: ds ++ [])) = (m ++ (i ++ [46])) ++ ds := by simp
      rw [this]
      exact last_append h1
  · obtain ⟨c, h1, h2⟩ := digits_last hd
    refine ⟨c, ?_, h2⟩
    have : m ++ (i ++ (f ++ x :: (sg ++ ds))) = (m ++ (i ++ (f ++ x :: sg))) ++ ds := by simp
    rw [this]
    exact last_append h1

/-! ## The two scans -/

/-- The rest does not end with a digit. -/
def Capped (s : RJ) : Prop := ∀ c, s.rest.getLast? = some c → ¬ Digit c

/-- A usable parser, whose rest does not end with a digit. -/
structure Primed (F : Nat) (s : RJ) : Prop where
  usable : Usable F s
  capped : Capped s

theorem Primed.moved {F : Nat} {s s' : RJ} {n : Nat} (h : Primed F s) (hm : s.Moved s' n) : Primed F s' := by
  refine ⟨h.usable.moved hm, ?_⟩
  intro c hc
  apply h.capped c
  rw [hm.rest] at hc
  rw [← List.take_append_drop n s.rest]
  exact last_append hc

/-- The reader fails where it would end. -/
def St.late (k : Nat) (st : St β) : St β := { st with rj := st.rj.late k }

/-- The results of a function: the same; or the same and the readers too (a failure has been dropped); or both calls cannot go on, and the
states of the client are alike. `Go` says which results go on, `No` which are errors. -/
def Both {ρ : Type} (k F : Nat) (Alike : β → β → Prop) (Go No : ρ → Prop) (x y : St β × ρ) : Prop :=
  (y = (x.1.late k, x.2) ∧ (Go x.2 → Primed F x.1.rj)) ∨ y = x ∨ (Alike x.1.baton y.1.baton ∧ ¬ Go x.2 ∧ No y.2)

/-- The same for an action. -/
def BothAct (k F : Nat) (Alike : β → β → Prop) (x y : (RJ × β) × Acted) : Prop :=
  (y = ((x.1.1.late k, x.1.2), x.2) ∧ (x.2 = .op .none ∨ x.2 = .op .valueIsConsumed → Primed F x.1.1)) ∨ y = x ∨
    (Alike x.1.2 y.1.2 ∧ (∃ m, x.2 = .op (.error m)) ∧ ∃ m, y.2 = .op (.error m))

/-- Callbacks whose actions do the same with a reader that ends and with one that fails there, up to there. -/
structure Patient (cb : Callbacks β) (k F : Nat) (Alike : β → β → Prop) : Prop where
  same : ∀ b, Alike b b
  find : ∀ (p : Pseudo) (c : Ctx) (b : β) (s : RJ), Primed F s →
    ∀ act, (cb.find p c b).2 = some act → BothAct k F Alike (act s (cb.find p c b).1) (act (s.late k) (cb.find p c b).1)

def Step.Go (r : Step) : Prop := ∃ p, r = .next p
def Step.No (r : Step) : Prop := ∃ e, r = .done (.err e)
def SRes.Go {α : Type} (r : SRes α) : Prop := ∃ v, r = .ok v
def SRes.No {α : Type} (r : SRes α) : Prop := ∃ e, r = .err e
def After.Go (r : After) : Prop := r = .go ∨ r = .consumed
def After.No (r : After) : Prop := ∃ e, r = .leave (.err e)

section
variable {cb : Callbacks β} {k F : Nat} {Alike : β → β → Prop} {opt : Options}

theorem callAction_both (hC : Patient cb k F Alike) (p : Pseudo) {st : St β} (hr : Primed F st.rj) :
    Both k F Alike After.Go After.No (callAction cb p st) (callAction cb p (st.late k)) := by
  have h := hC.find p (.of st.pool) st.baton st.rj hr
  unfold callAction
  rw [show (st.late k).pool = st.pool from rfl, show (st.late k).baton = st.baton from rfl, show (st.late k).rj = st.rj.late k from rfl]
  rcases hf : cb.find p (.of st.pool) st.baton with ⟨b, _ | act⟩
  · exact .inl ⟨rfl, fun _ => hr⟩
  · rw [hf] at h
    rcases h act rfl with ⟨h1, h2⟩ | h | ⟨h1, h2, m, h3⟩
    · simp only
      rw [h1]
      rcases hx : act st.rj b with ⟨⟨s', b'⟩, (_ | _ | m) | _ | _⟩
      · rw [hx] at h2; exact .inl ⟨rfl, fun _ => h2 (.inl rfl)⟩
      · rw [hx] at h2; exact .inl ⟨rfl, fun _ => h2 (.inr rfl)⟩
      all_goals exact .inl ⟨rfl, fun h => by rcases h with h | h <;> cases h⟩
    · simp only
      rw [h]
      rcases hx : act st.rj b with ⟨⟨s', b'⟩, (_ | _ | m) | _ | _⟩ <;> exact .inr (.inl rfl)
    · simp only
      rcases hy : act (st.rj.late k) b with ⟨⟨s2, b2⟩, r2⟩
      rw [hy] at h1 h3
      simp only at h3
      subst h3
      obtain ⟨m2, h2⟩ := h2
      rcases hx : act st.rj b with ⟨⟨s', b'⟩, r⟩
      rw [hx] at h1 h2
      simp only at h2
      subst h2
      refine .inr (.inr ⟨h1, ?_, _, rfl⟩)
      intro h
      rcases h with h | h <;> cases h

theorem endStep_late (p : Pseudo) (c : Ctx) (st : St β) (pool : Pool) :
    endStep cb p c (st.late k) pool = ((endStep cb p c st pool).1.late k, (endStep cb p c st pool).2) := by
  unfold endStep
  rw [show (st.late k).baton = st.baton from rfl]
  rcases cb.findEnd p c st.baton with ⟨b, _ | act⟩
  · rfl
  · simp only [runEnd]
    rcases act b with ⟨b', _ | m⟩ <;> rfl

theorem endStep_rj (p : Pseudo) (c : Ctx) (st : St β) (pool : Pool) : (endStep cb p c st pool).1.rj = st.rj := by
  unfold endStep
  rcases cb.findEnd p c st.baton with ⟨b, _ | act⟩
  · rfl
  · simp only [runEnd]
    rcases act b with ⟨b', _ | m⟩ <;> rfl

theorem topPos_late (st : St β) (msg : String) : topPos (st.late k) msg = topPos st msg := rfl

theorem no_cast {α : Type} {r : SRes Empty} : ¬ (r.cast : SRes α).Go := by
  rintro ⟨v, h⟩
  cases r with
  | ok a => cases a
  | _ => cases h

/-- The code behind a call. -/
theorem Both.andThen {ρ σ : Type} {Go No : ρ → Prop} {Go' No' : σ → Prop} {x y : St β × ρ} (h : Both k F Alike Go No x y)
    {g : St β × ρ → St β × σ}
    (hgo : ∀ st r, Go r → Primed F st.rj → Both k F Alike Go' No' (g (st, r)) (g (st.late k, r)))
    (hstop : ∀ st r, ¬ Go r → g (st.late k, r) = ((g (st, r)).1.late k, (g (st, r)).2) ∧ (g (st, r)).1.baton = st.baton ∧ ¬ Go' (g (st, r)).2)
    (hno : ∀ st r, No r → (g (st, r)).1.baton = st.baton ∧ No' (g (st, r)).2) : Both k F Alike Go' No' (g x) (g y) := by
  rcases x with ⟨st, r⟩
  rcases h with ⟨rfl, h⟩ | rfl | ⟨h1, h2, h3⟩
  · by_cases hr : Go r
    · exact hgo st r hr (h hr)
    · exact .inl ⟨(hstop st r hr).1, fun h => absurd h (hstop st r hr).2.2⟩
  · exact .inr (.inl rfl)
  · rcases y with ⟨st2, r2⟩
    refine .inr (.inr ⟨?_, (hstop st r h2).2.2, (hno st2 r2 h3).2⟩)
    rw [(hstop st r h2).2.1, (hno st2 r2 h3).1]
    exact h1

theorem endStep_both {σ : Type} {Go No : σ → Prop} (p : Pseudo) (c : Ctx) (st : St β) (pool : Pool) (hr : Primed F st.rj)
    {g : St β × Option SErr → St β × σ}
    (hgo : ∀ st, Primed F st.rj → Both k F Alike Go No (g (st, none)) (g (st.late k, none)))
    (hstop : ∀ st e, g (st.late k, some e) = ((g (st, some e)).1.late k, (g (st, some e)).2) ∧ ¬ Go (g (st, some e)).2) :
    Both k F Alike Go No (g (endStep cb p c st pool)) (g (endStep cb p c (st.late k) pool)) := by
  rw [endStep_late]
  have hj := endStep_rj (cb := cb) p c st pool
  rw [← hj] at hr
  clear hj
  revert hr
  rcases endStep cb p c st pool with ⟨st2, _ | e⟩ <;> intro hr
  · exact hgo st2 hr
  · exact .inl ⟨(hstop st2 e).1, fun h => absurd h (hstop st2 e).2⟩

/-- A parser call, and the code behind it. -/
theorem waits_both {α ρ : Type} {Go No : ρ → Prop} {s : RJ} {x y : RJ × Res α} {m : Nat} (hw : RJ.Waits k x y) (hrun : s.Runs m x)
    (hr : Primed F s) {g : RJ × Res α → St β × ρ}
    (hok : ∀ s' v, Primed F s' → Both k F Alike Go No (g (s', .ok v)) (g (s'.late k, .ok v)))
    (herr : ∀ s' e, g (s'.late k, .err e) = ((g (s', .err e)).1.late k, (g (s', .err e)).2) ∧ ¬ Go (g (s', .err e)).2)
    (hio : ∀ s' e t i, Alike (g (s', .err e)).1.baton (g (t, .err ⟨.io k, i⟩)).1.baton ∧ No (g (t, .err ⟨.io k, i⟩)).2) :
    Both k F Alike Go No (g x) (g y) := by
  rcases x with ⟨s', v | e | _ | _⟩
  · obtain ⟨n, _, hm⟩ := hrun
    rcases hw with rfl | ⟨_, h⟩
    · exact hok _ _ (hr.moved hm)
    · exact absurd rfl (h v)
  · rcases hw with rfl | ⟨⟨i, h⟩, _⟩
    · exact .inl ⟨(herr _ _).1, fun h => absurd h (herr _ _).2⟩
    · rcases y with ⟨t, r⟩
      simp only at h
      subst h
      exact .inr (.inr ⟨(hio _ _ _ _).1, (herr _ _).2, (hio s' e _ _).2⟩)
  · exact hrun.elim
  · exact hrun.elim

theorem handleKey_both (hC : Patient cb k F Alike) (begin : Bool) {st : St β} (hr : Primed F st.rj) :
    Both k F Alike SRes.Go SRes.No (handleKey F cb begin st) (handleKey F cb begin (st.late k)) := by
  rw [handleKey_eq, handleKey_eq]
  have hl : 2 ≤ st.rj.b.buf.length := by have := hr.usable.len; omega
  have hrun : st.rj.Runs 1 (if begin then st.rj.nextObjectBytes F else st.rj.nextKeyBytes F) := by
    split
    · exact RJ.nextObjectBytes_runs hr.usable.sync hl hr.usable.fuel
    · exact RJ.nextKeyBytes_runs hr.usable.sync hl hr.usable.fuel
  have hw : RJ.Waits k (if begin then st.rj.nextObjectBytes F else st.rj.nextKeyBytes F)
      (if begin then (st.late k).rj.nextObjectBytes F else (st.late k).rj.nextKeyBytes F) := by
    split
    · exact RJ.nextObjectBytes_waits k F hr.usable.sync
    · exact RJ.nextKeyBytes_waits k F hr.usable.sync
  refine waits_both hw hrun hr (g := fun x => match x with
      | (rj, .ok none) =>
        match endStep cb .object (.of st.pool) { st with rj := rj } st.pool with
        | (st, some e) => (st, .err e)
        | (st, none) => (st, topPos st "Context stack is empty when ending object")
      | (rj, .ok (some key)) =>
        match st.pool.pushAssoc posLayout [Pos.objectMiddle.byte] key with
        | (p, .ok _) =>
          match callAction cb .none { st with rj := rj, pool := p } with
          | (st, .go) => (st, .ok .objectBetweenKV)
          | (st, .consumed) => (st, .ok .objectMiddle)
          | (st, .leave r) => (st, r.cast)
        | (p, .err e) => ({ st with rj := rj, pool := p }, .err (keyPushError e rj.currentIndex))
        | (p, .panic) => ({ st with rj := rj, pool := p }, .panic)
      | (rj, .err e) => ({ st with rj := rj }, .err (.rjiter e))
      | (rj, .panic) => ({ st with rj := rj }, .panic)
      | (rj, .diverge) => ({ st with rj := rj }, .diverge)) ?_ ?_ ?_
  · intro s' v hs'
    rcases v with _ | key
    · exact endStep_both .object (.of st.pool) { st with rj := s' } st.pool hs'
        (σ := SRes Pos) (g := fun x => match x with
          | (st, some e) => (st, .err e)
          | (st, none) => (st, topPos st "Context stack is empty when ending object"))
        (fun st2 hs2 => .inl ⟨rfl, fun _ => hs2⟩) (fun st2 e => ⟨rfl, fun h => by obtain ⟨_, h⟩ := h; cases h⟩)
    · simp only
      rcases st.pool.pushAssoc posLayout [Pos.objectMiddle.byte] key with ⟨p, _ | e | _⟩
      · refine (callAction_both hC .none (st := { st with rj := s', pool := p }) hs').andThen
          (σ := SRes Pos) (g := fun x => match x with
            | (st, .go) => (st, .ok .objectBetweenKV)
            | (st, .consumed) => (st, .ok .objectMiddle)
            | (st, .leave r) => (st, r.cast)) ?_ ?_ ?_
        · intro st2 r hg hr2
          rcases hg with rfl | rfl <;> exact .inl ⟨rfl, fun _ => hr2⟩
        · intro st2 r hg
          rcases r with _ | _ | r
          · exact absurd (.inl rfl) hg
          · exact absurd (.inr rfl) hg
          · exact ⟨rfl, rfl, no_cast⟩
        · intro st2 r hn
          obtain ⟨e, rfl⟩ := hn
          exact ⟨rfl, _, rfl⟩
      · exact .inl ⟨rfl, fun _ => hs'⟩
      · exact .inl ⟨rfl, fun _ => hs'⟩
  · intro s' e
    exact ⟨rfl, fun h => by obtain ⟨_, h⟩ := h; cases h⟩
  · intro s' e t i
    exact ⟨hC.same _, _, rfl⟩

theorem handleObject_both (hC : Patient cb k F Alike) (pos : Pos) {st : St β} (hr : Primed F st.rj) :
    Both k F Alike SRes.Go SRes.No (handleObject F cb pos st) (handleObject F cb pos (st.late k)) := by
  rw [handleObject_eq, handleObject_eq]
  by_cases hp : pos = .objectBegin
  · simp only [hp, if_true]
    refine (callAction_both hC .object hr).andThen
      (σ := SRes Pos) (g := fun x => match x with
        | (st, .go) => handleKey F cb true st
        | (st, .consumed) => (st, topPos st "Context stack is empty when handling ValueIsConsumed")
        | (st, .leave r) => (st, r.cast)) ?_ ?_ ?_
    · intro st2 r hg hr2
      rcases hg with rfl | rfl
      · exact handleKey_both hC true hr2
      · exact .inl ⟨rfl, fun _ => hr2⟩
    · intro st2 r hg
      rcases r with _ | _ | r
      · exact absurd (.inl rfl) hg
      · exact absurd (.inr rfl) hg
      · exact ⟨rfl, rfl, no_cast⟩
    · intro st2 r hn
      obtain ⟨e, rfl⟩ := hn
      exact ⟨rfl, _, rfl⟩
  · simp only [hp, if_false]
    rw [show (st.late k).pool = st.pool from rfl]
    have key : ∀ p : Pool, Both k F Alike SRes.Go SRes.No
        (match endStep cb .none (.of st.pool) st p with
          | (st, some e) => (st, .err e)
          | (st, none) => handleKey F cb false st)
        (match endStep cb .none (.of st.pool) (st.late k) p with
          | (st, some e) => (st, .err e)
          | (st, none) => handleKey F cb false st) := by
      intro p
      exact endStep_both .none (.of st.pool) st p hr
        (σ := SRes Pos) (g := fun x => match x with
          | (st, some e) => (st, .err e)
          | (st, none) => handleKey F cb false st)
        (fun st2 hs2 => handleKey_both hC false hs2) (fun st2 e => ⟨rfl, fun h => by obtain ⟨_, h⟩ := h; cases h⟩)
    rcases st.pool.popAssoc posLayout with ⟨p, _ | _ | _⟩
    · exact key p
    · exact key p
    · exact .inl ⟨rfl, fun h => by obtain ⟨_, h⟩ := h; cases h⟩

theorem handleItem_both (hC : Patient cb k F Alike) (begin : Bool) {st : St β} (hr : Primed F st.rj) :
    Both k F Alike SRes.Go SRes.No (handleItem F cb begin st) (handleItem F cb begin (st.late k)) := by
  rw [handleItem_eq, handleItem_eq]
  have hl : 2 ≤ st.rj.b.buf.length := by have := hr.usable.len; omega
  have hrun : st.rj.Runs 1 (if begin then st.rj.knownArray F else st.rj.arrayStep F) := by
    split
    · exact RJ.knownArray_runs hr.usable.sync hl hr.usable.fuel
    · exact RJ.arrayStep_runs hr.usable.sync hl hr.usable.fuel
  have hw : RJ.Waits k (if begin then st.rj.knownArray F else st.rj.arrayStep F)
      (if begin then (st.late k).rj.knownArray F else (st.late k).rj.arrayStep F) := by
    split
    · exact RJ.knownArray_waits k F hr.usable.sync
    · exact RJ.arrayStep_waits k F hr.usable.sync
  refine waits_both hw hrun hr (ρ := SRes (Option Byte × Pos)) (g := fun x => match x with
      | (rj, .ok none) =>
        match st.pool.popAssoc posLayout with
        | (p, .ok (some _)) =>
          match endStep cb .array (.of p) { st with rj := rj, pool := p } p with
          | (st, some e) => (st, .err e)
          | (st, none) =>
            match topPos st "Context stack is empty when ending array" with
            | .ok pos => (st, .ok (none, pos))
            | .err e => (st, .err e)
            | .panic => (st, .panic)
            | .diverge => (st, .diverge)
        | (p, .ok none) =>
          ({ st with rj := rj, pool := p }, .err (.internal rj.currentIndex "Context stack is empty when ending array"))
        | (p, _) => ({ st with rj := rj, pool := p }, .panic)
      | (rj, .ok (some c)) => ({ st with rj := rj }, .ok (some c, .arrayMiddle))
      | (rj, .err e) => ({ st with rj := rj }, .err (.rjiter e))
      | (rj, .panic) => ({ st with rj := rj }, .panic)
      | (rj, .diverge) => ({ st with rj := rj }, .diverge)) ?_ ?_ ?_
  · intro s' v hs'
    rcases v with _ | c
    · simp only
      rcases st.pool.popAssoc posLayout with ⟨p, (_ | _) | _ | _⟩
      · exact .inl ⟨rfl, fun _ => hs'⟩
      · refine endStep_both .array (.of p) { st with rj := s', pool := p } p hs'
          (σ := SRes (Option Byte × Pos)) (g := fun x => match x with
            | (st, some e) => (st, .err e)
            | (st, none) =>
              match topPos st "Context stack is empty when ending array" with
              | .ok pos => (st, .ok (none, pos))
              | .err e => (st, .err e)
              | .panic => (st, .panic)
              | .diverge => (st, .diverge))
          (fun st2 hs2 => ?_) (fun st2 e => ⟨rfl, fun h => by obtain ⟨_, h⟩ := h; cases h⟩)
        simp only [topPos_late]
        rcases topPos st2 "Context stack is empty when ending array" with _ | _ | _ | _ <;> exact .inl ⟨rfl, fun _ => hs2⟩
      · exact .inl ⟨rfl, fun _ => hs'⟩
      · exact .inl ⟨rfl, fun _ => hs'⟩
    · exact .inl ⟨rfl, fun _ => hs'⟩
  · intro s' e
    exact ⟨rfl, fun h => by obtain ⟨_, h⟩ := h; cases h⟩
  · intro s' e t i
    exact ⟨hC.same _, _, rfl⟩

theorem handleArray_both (hC : Patient cb k F Alike) (pos : Pos) {st : St β} (hr : Primed F st.rj) :
    Both k F Alike SRes.Go SRes.No (handleArray F cb pos st) (handleArray F cb pos (st.late k)) := by
  unfold handleArray
  by_cases hp : pos = .arrayBegin
  · simp only [hp, if_true]
    refine (callAction_both hC .array hr).andThen
      (σ := SRes (Option Byte × Pos)) (g := fun x => match x with
        | (st, .go) =>
          match st.pool.pushAssoc posLayout [Pos.arrayMiddle.byte] nameArray with
          | (p, .ok _) => handleItem F cb true { st with pool := p }
          | (p, .err _) => ({ st with pool := p }, .err (.maxNesting st.rj.currentIndex p.len))
          | (p, .panic) => ({ st with pool := p }, .panic)
        | (st, .consumed) =>
          match topPos st "Context stack is empty when handling ValueIsConsumed in array" with
          | .ok pos => (st, .ok (none, pos))
          | .err e => (st, .err e)
          | .panic => (st, .panic)
          | .diverge => (st, .diverge)
        | (st, .leave r) => (st, r.cast)) ?_ ?_ ?_
    · intro st2 r hg hr2
      rcases hg with rfl | rfl
      · simp only
        rw [show (st2.late k).pool = st2.pool from rfl]
        rcases st2.pool.pushAssoc posLayout [Pos.arrayMiddle.byte] nameArray with ⟨p, _ | _ | _⟩
        · exact handleItem_both hC true (st := { st2 with pool := p }) hr2
        · exact .inl ⟨rfl, fun _ => hr2⟩
        · exact .inl ⟨rfl, fun _ => hr2⟩
      · simp only [topPos_late]
        rcases topPos st2 "Context stack is empty when handling ValueIsConsumed in array" with _ | _ | _ | _ <;>
          exact .inl ⟨rfl, fun _ => hr2⟩
    · intro st2 r hg
      rcases r with _ | _ | r
      · exact absurd (.inl rfl) hg
      · exact absurd (.inr rfl) hg
      · exact ⟨rfl, rfl, no_cast⟩
    · intro st2 r hn
      obtain ⟨e, rfl⟩ := hn
      exact ⟨rfl, _, rfl⟩
  · simp only [hp, if_false]
    exact handleItem_both hC false hr

/-- A number is found without the end only if it does not end with the input. -/
theorem nextNumber_waits {s : RJ} (k : Nat) (hr : Primed F s) : RJ.Waits k (s.nextNumberBytes F) ((s.late k).nextNumberBytes F) := by
  rcases RJ.loopUntilSuccess_pair k F hr.usable.sync RJ.nextNumber_needs (eager := true) with h | ⟨h1, h2, h3 | ⟨-, h3⟩⟩
  · exact .inl h
  · exact .inr ⟨h1, h3⟩
  · refine .inr ⟨h1, ?_⟩
    intro v hv
    change (s.nextNumberBytes F).1.b.reader = [] at h2
    change (s.nextNumberBytes F).1.b.nBytes ≤ (s.nextNumberBytes F).1.jidx at h3
    obtain ⟨ws, t, e1, -, e3, e4, -⟩ := C44_next_number s F hr.usable.sync (by have := hr.usable.len; omega) hr.usable.fuel
      (s.nextNumberBytes F).1 v (Prod.ext rfl hv)
    have hrest : (s.nextNumberBytes F).1.rest = [] := by
      unfold RJ.rest Buffer.rest Buffer.valid
      rw [h2, List.append_eq_nil_iff]
      refine ⟨?_, rfl⟩
      rw [List.drop_eq_nil_iff, List.length_take]
      omega
    have ht : t = [] := by
      have := e4.rest
      rw [hrest, e1, ← List.append_assoc, ← List.length_append, List.drop_left] at this
      exact this.symm
    obtain ⟨c, hc, hd⟩ := number_digit e3
    refine hr.capped c ?_ hd
    rw [e1, ht, List.append_nil]
    exact last_append hc

theorem skipBasic_both (c : Byte) {s : RJ} (hr : Primed F s) :
    (skipBasic F c (s.late k) = ((skipBasic F c s).1.late k, (skipBasic F c s).2) ∧ ((skipBasic F c s).2.Go → Primed F (skipBasic F c s).1)) ∨
      (¬ (skipBasic F c s).2.Go ∧ (skipBasic F c s).2.No ∧ (skipBasic F c (s.late k)).2.No) := by
  have hl : 2 ≤ s.b.buf.length := by have := hr.usable.len; omega
  have hdrop : ∀ {α : Type} {m : Nat} {x y : RJ × Res α}, s.Runs m x → RJ.Waits k x y →
      (dropValue y = ((dropValue x).1.late k, (dropValue x).2) ∧ ((dropValue x).2.Go → Primed F (dropValue x).1)) ∨
        (¬ (dropValue x).2.Go ∧ (dropValue x).2.No ∧ (dropValue y).2.No) := by
    intro α m x y hx hw
    rcases x with ⟨s', v | e | _ | _⟩
    · obtain ⟨n, -, hm⟩ := hx
      rcases hw with rfl | ⟨_, h⟩
      · exact .inl ⟨rfl, fun _ => hr.moved hm⟩
      · exact absurd rfl (h v)
    · rcases hw with rfl | ⟨⟨i, h⟩, _⟩
      · exact .inl ⟨rfl, fun h => by obtain ⟨_, h⟩ := h; cases h⟩
      · rcases y with ⟨t, r⟩
        simp only at h
        subst h
        refine .inr ⟨?_, ⟨_, rfl⟩, _, rfl⟩
        rintro ⟨_, h⟩
        cases h
    · exact hx.elim
    · exact hx.elim
  unfold skipBasic
  by_cases c1 : c = 34
  · simp only [c1, if_true]
    refine hdrop (RJ.handleLong_runs .raw ⟨[], []⟩ hr.usable.sync hr.usable.len hr.usable.fuel) ?_
    rcases RJ.handleLong_waits k .raw F s ⟨[], []⟩ with h | ⟨h1, h2, -⟩
    · left
      change ((RJ.handleLong .raw F (s.late k) ⟨[], []⟩).1.1, (RJ.handleLong .raw F (s.late k) ⟨[], []⟩).2) = _
      rw [h]; rfl
    · exact .inr ⟨h1, h2⟩
  · simp only [c1, if_false]
    by_cases c2 : c = 110
    · simp only [c2, if_true]
      exact hdrop (RJ.knownNull_runs hr.usable.sync hl hr.usable.fuel) (RJ.knownNull_waits k F hr.usable.sync)
    · simp only [c2, if_false]
      by_cases c3 : c = 116 ∨ c = 102
      · simp only [c3, if_true]
        exact hdrop (RJ.knownBool_runs c hr.usable.sync hl hr.usable.fuel) (RJ.knownBool_waits k F hr.usable.sync c)
      · simp only [c3, if_false]
        have hx := RJ.nextNumberBytes_runs hr.usable.sync hl hr.usable.fuel
        have hw := nextNumber_waits k hr
        generalize s.nextNumberBytes F = x at hx hw
        rcases x with ⟨s', v | e | _ | _⟩
        · obtain ⟨n, -, hm⟩ := hx
          rcases hw with h | ⟨_, h⟩
          · rw [h]; exact .inl ⟨rfl, fun _ => hr.moved hm⟩
          · exact absurd rfl (h v)
        · rcases hw with h | ⟨⟨i, h⟩, _⟩
          · rw [h]; exact .inl ⟨rfl, fun h => by obtain ⟨_, h⟩ := h; cases h⟩
          · rcases hy : (s.late k).nextNumberBytes F with ⟨t, r⟩
            rw [hy] at h
            simp only at h
            subst h
            refine .inr ⟨?_, ⟨_, rfl⟩, _, rfl⟩
            rintro ⟨_, h⟩
            cases h
        · exact hx.elim
        · exact hx.elim

theorem step_not_go {r : SRes Unit} : ¬ (Step.done r).Go := by rintro ⟨p, h⟩; cases h

theorem onValue_both (hC : Patient cb k F Alike) (hno : opt.sseTokens = []) (c : Byte) (pos : Pos) {st : St β} (hr : Primed F st.rj) :
    Both k F Alike Step.Go Step.No (onValue F cb opt c pos st) (onValue F cb opt c pos (st.late k)) := by
  rw [onValue_eq, onValue_eq]
  by_cases c1 : c = 91
  · simp only [c1, if_true]; exact .inl ⟨rfl, fun _ => hr⟩
  · simp only [c1, if_false]
    by_cases c2 : c = 123
    · simp only [c2, if_true]; exact .inl ⟨rfl, fun _ => hr⟩
    · simp only [c2, if_false]
      refine (callAction_both hC .atom hr).andThen
        (σ := Step) (g := fun x => match x with
          | (st, .go) => skipStep F opt c pos st.rj st.baton st.pool
          | (st, .consumed) => (st, .next pos)
          | (st, .leave r) => (st, .done r.cast)) ?_ ?_ ?_
      · intro st2 r hg hr2
        rcases hg with rfl | rfl
        · simp only
          rw [show (st2.late k).rj = st2.rj.late k from rfl, show (st2.late k).baton = st2.baton from rfl,
            show (st2.late k).pool = st2.pool from rfl]
          unfold skipStep
          have hs := skipBasic_both (k := k) c hr2
          rcases hs with ⟨h1, h2⟩ | ⟨-, ⟨e1, h1⟩, e2, h2⟩
          · rw [h1]
            rcases hx : skipBasic F c st2.rj with ⟨s', _ | e | _ | _⟩
            · rw [hx] at h2; exact .inl ⟨rfl, fun _ => h2 ⟨_, rfl⟩⟩
            · simp only [hno, skipSse]
              split <;> exact .inl ⟨rfl, fun h => absurd h step_not_go⟩
            · exact .inl ⟨rfl, fun h => absurd h step_not_go⟩
            · exact .inl ⟨rfl, fun h => absurd h step_not_go⟩
          · rcases hx : skipBasic F c st2.rj with ⟨s', r1⟩
            rw [hx] at h1
            simp only at h1
            subst h1
            rcases hy : skipBasic F c (st2.rj.late k) with ⟨s3, r3⟩
            rw [hy] at h2
            simp only at h2
            subst h2
            simp only [hno, skipSse]
            split <;> exact .inr (.inr ⟨hC.same _, step_not_go, _, rfl⟩)
        · exact .inl ⟨rfl, fun _ => hr2⟩
      · intro st2 r hg
        rcases r with _ | _ | r
        · exact absurd (.inl rfl) hg
        · exact absurd (.inr rfl) hg
        · exact ⟨rfl, rfl, step_not_go⟩
      · intro st2 r hn
        obtain ⟨e, rfl⟩ := hn
        exact ⟨rfl, _, rfl⟩

theorem turn_both (hC : Patient cb k F Alike) (hno : opt.sseTokens = []) (pos : Pos) {st : St β} (hr : Primed F st.rj) :
    Both k F Alike Step.Go Step.No (turn F cb opt pos st) (turn F cb opt pos (st.late k)) := by
  unfold turn
  by_cases c1 : pos = .objectBegin ∨ pos = .objectMiddle
  · simp only [c1, if_true]
    refine (handleObject_both hC pos hr).andThen
      (σ := Step) (g := fun x => match x with
        | (st, .ok p) => (st, .next p)
        | (st, .err e) => (st, .done (.err e))
        | (st, .panic) => (st, .done .panic)
        | (st, .diverge) => (st, .done .diverge)) ?_ ?_ ?_
    · intro st2 r hg hr2
      obtain ⟨p, rfl⟩ := hg
      exact .inl ⟨rfl, fun _ => hr2⟩
    · intro st2 r hg
      rcases r with p | _ | _ | _
      · exact absurd ⟨_, rfl⟩ hg
      all_goals exact ⟨rfl, rfl, step_not_go⟩
    · intro st2 r hn
      obtain ⟨e, rfl⟩ := hn
      exact ⟨rfl, _, rfl⟩
  · simp only [c1, if_false]
    by_cases c2 : pos = .arrayBegin ∨ pos = .arrayMiddle
    · simp only [c2, if_true]
      refine (handleArray_both hC pos hr).andThen
        (σ := Step) (g := fun x => match x with
          | (st, .ok (some c, p)) =>
            if p = .arrayMiddle then onValue F cb opt c .arrayMiddle st
            else (st, .done (.err (.internal st.rj.currentIndex "Unexpected position from handle_array")))
          | (st, .ok (none, p)) => (st, .next p)
          | (st, .err e) => (st, .done (.err e))
          | (st, .panic) => (st, .done .panic)
          | (st, .diverge) => (st, .done .diverge)) ?_ ?_ ?_
      · intro st2 r hg hr2
        obtain ⟨⟨_ | c, p⟩, rfl⟩ := hg
        · exact .inl ⟨rfl, fun _ => hr2⟩
        · simp only
          split
          · exact onValue_both hC hno c .arrayMiddle hr2
          · exact .inl ⟨rfl, fun _ => hr2⟩
      · intro st2 r hg
        rcases r with p | _ | _ | _
        · exact absurd ⟨_, rfl⟩ hg
        all_goals exact ⟨rfl, rfl, step_not_go⟩
      · intro st2 r hn
        obtain ⟨e, rfl⟩ := hn
        exact ⟨rfl, _, rfl⟩
    · simp only [c2, if_false]
      have hl : 2 ≤ st.rj.b.buf.length := by have := hr.usable.len; omega
      have hrun := RJ.peek_runs hr.usable.sync hl hr.usable.fuel
      have hw := RJ.peek_waits k F hr.usable.sync
      rw [show (st.late k).rj = st.rj.late k from rfl]
      rcases hx : st.rj.peek F with ⟨s', c | e | _ | _⟩
      · rw [hx] at hrun hw
        obtain ⟨n, -, hm⟩ := hrun
        rcases hw with h | ⟨_, h⟩
        · rw [h]
          exact onValue_both hC hno c _ (st := { st with rj := s' }) (hr.moved hm)
        · exact absurd rfl (h c)
      · rw [hx] at hw
        rcases hw with h | ⟨⟨i, h⟩, _⟩
        · rw [h]
          simp only
          split
          · split
            · exact .inl ⟨rfl, fun h => absurd h step_not_go⟩
            · rcases RJ.finishLoop_pair k F s' with h | ⟨⟨i, h⟩, -, -⟩
              · left
                refine ⟨?_, fun h => absurd h step_not_go⟩
                simp only [RJ.finish, h]; rfl
              · right; right
                refine ⟨hC.same _, step_not_go, ?_⟩
                simp only [RJ.finish, h, SRes.ofRes]
                exact ⟨_, rfl⟩
          · exact .inl ⟨rfl, fun h => absurd h step_not_go⟩
        · rcases hy : (st.rj.late k).peek F with ⟨t, r⟩
          rw [hy] at h
          simp only at h
          subst h
          simp only
          by_cases c3 : e.type = .json .eofWhileParsingValue
          · simp only [c3, if_true]
            by_cases c4 : pos ≠ .top
            · rw [if_pos c4]; exact .inr (.inr ⟨hC.same _, step_not_go, _, rfl⟩)
            · rw [if_neg c4]; exact .inr (.inr ⟨hC.same _, step_not_go, _, rfl⟩)
          · rw [if_neg c3]; exact .inr (.inr ⟨hC.same _, step_not_go, _, rfl⟩)
      · rw [hx] at hrun; exact hrun.elim
      · rw [hx] at hrun; exact hrun.elim

/-- The results of the two scans. -/
def Parted (Alike : β → β → Prop) (x y : St β × SRes Unit) : Prop :=
  Alike x.1.baton y.1.baton ∧ (y.2 = x.2 ∨ y.2.No)

theorem mainLoop_both (hC : Patient cb k F Alike) (hno : opt.sseTokens = []) : ∀ (n : Nat) (b : Bool) (pos : Pos) (st : St β), Primed F st.rj →
    Parted Alike (mainLoop F cb opt n b pos st) (mainLoop F cb opt n b pos (st.late k)) := by
  intro n
  induction n with
  | zero => intro b pos st _; exact ⟨hC.same _, .inl rfl⟩
  | succ n ih =>
    intro b pos st hr
    unfold mainLoop
    split
    · exact ⟨hC.same _, .inl rfl⟩
    · rcases turn_both hC hno pos hr with ⟨h1, h2⟩ | h | ⟨h1, h2, e, h3⟩
      · rw [h1]
        revert h2
        rcases turn F cb opt pos st with ⟨st2, p | r⟩ <;> intro h2
        · exact ih true p st2 (h2 ⟨_, rfl⟩)
        · exact ⟨hC.same _, .inl rfl⟩
      · rw [h]
        exact ⟨hC.same _, .inl rfl⟩
      · revert h1 h2 h3
        rcases turn F cb opt pos st with ⟨st2, p | r⟩ <;> rcases turn F cb opt pos (st.late k) with ⟨st3, r3⟩ <;> intro h1 h2 h3
        · exact absurd ⟨_, rfl⟩ h2
        · simp only at h3
          subst h3
          exact ⟨h1, .inr ⟨_, rfl⟩⟩

theorem scan_both (hC : Patient cb k F Alike) (hno : opt.sseTokens = []) (turns : Nat) {st : St β} (hr : Primed F st.rj) :
    Parted Alike (scan turns F cb opt st) (scan turns F cb opt (st.late k)) := by
  unfold scan
  rw [show (st.late k).pool = st.pool from rfl]
  rcases st.pool.pushAssoc posLayout [Pos.top.byte] nameTop with ⟨p, _ | _ | _⟩
  · exact mainLoop_both hC hno turns false .top { st with pool := p } hr
  · exact ⟨hC.same _, .inl rfl⟩
  · exact ⟨hC.same _, .inl rfl⟩

end

end Verif.Scan
