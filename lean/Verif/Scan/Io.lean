import Verif.RJiter.Faults
import Verif.Scan.Sim

/-!
# What `scan` does with the failures of its reader
-/

namespace Verif.Scan

open Verif.RJiter
open Verif.U8Pool (Pool PRes PoolError)

variable {β : Type}

/-! ## Specification -/

/-- From the failures `f` ahead to the failures `f'` ahead: some have happened; none if `c`. -/
def Lost (c : Prop) (f f' : List Nat) : Prop := ∃ l, f = l ++ f' ∧ (c → l = [])

/-- What a result says about the failures that have happened: an I/O error of the parser is the last of them; an action that
returns an error may have seen some; `UnhandledPeek` may hide one. If `c`, there were no others. -/
def Reported {α : Type} (c : Prop) (f f' : List Nat) : SRes α → Prop
  | .err (.rjiter ⟨.io k, _⟩) => Lost c f (k :: f')
  | .err (.unhandledPeek _ _) => Lost c f f' ∨ ∃ k, Lost c f (k :: f')
  | .err (.action _ _) => Lost False f f'
  | .panic => Lost False f f'
  | .diverge => Lost False f f'
  | _ => Lost c f f'

/-- What an action may do: if `c`, it returns an error if the reader has failed it. -/
def Owns (c : Prop) (s : RJ) (x : (RJ × β) × Acted) : Prop :=
  match x with
  | ((s', _), .op .none) => Lost c s.b.reader.faults s'.b.reader.faults
  | ((s', _), .op .valueIsConsumed) => Lost c s.b.reader.faults s'.b.reader.faults
  | ((s', _), _) => Lost False s.b.reader.faults s'.b.reader.faults

/-- Actions that, if `c`, return an error if the reader has failed them. -/
def Honest (c : Prop) (cb : Callbacks β) : Prop :=
  ∀ (p : Pseudo) (ctx : Ctx) (b b' : β) (act : Action β) (s : RJ), cb.find p ctx b = (b', some act) → Owns c s (act s b')

/-! ## Proof -/

theorem Lost.refl (c : Prop) (f : List Nat) : Lost c f f := ⟨[], rfl, fun _ => rfl⟩

theorem Lost.of {c : Prop} {f f' : List Nat} (h : f = f') : Lost c f f' := h ▸ .refl c f

theorem Lost.trans {c : Prop} {f g h : List Nat} (h1 : Lost c f g) (h2 : Lost c g h) : Lost c f h := by
  obtain ⟨l1, rfl, e1⟩ := h1
  obtain ⟨l2, rfl, e2⟩ := h2
  exact ⟨l1 ++ l2, by simp, fun hc => by rw [e1 hc, e2 hc]; rfl⟩

theorem Lost.weaken {c : Prop} {f g : List Nat} (h : Lost c f g) : Lost False f g := by
  obtain ⟨l, e, _⟩ := h
  exact ⟨l, e, False.elim⟩

theorem Lost.cons {c : Prop} {f g : List Nat} {k : Nat} (h : Lost c f (k :: g)) : Lost False f g := by
  obtain ⟨l, e, _⟩ := h
  exact ⟨l ++ [k], by rw [e]; simp, False.elim⟩

theorem Reported.from {α : Type} {c : Prop} {f g h : List Nat} {r : SRes α} (h2 : Reported c g h r) (h1 : Lost c f g) : Reported c f h r := by
  rcases r with _ | (⟨_ | _ | k | _, i⟩ | _ | _ | _ | _ | _ | _) | _ | _
  all_goals first
    | exact h1.trans h2
    | exact h1.weaken.trans h2
    | exact h2.imp h1.trans (fun ⟨k, hk⟩ => ⟨k, h1.trans hk⟩)

theorem Reported.err {α γ : Type} {c : Prop} {f g : List Nat} {e : SErr} (h : Reported c f g (.err e : SRes α)) :
    Reported c f g (.err e : SRes γ) := by
  rcases e with ⟨_ | _ | k | _, i⟩ | _ | _ | _ | _ | _ | _ <;> exact h

/-- An error of the parser is passed on. -/
theorem Reported.ofTold {α γ : Type} {c : Prop} {b b' : Buffer} {e : Err} (h : Told b b' (.err e : Res α)) :
    Reported c b.reader.faults b'.reader.faults (.err (.rjiter e) : SRes γ) := by
  rcases e with ⟨_ | _ | k | _, i⟩
  all_goals first | exact .of h | exact .of h.1

variable {cb : Callbacks β} {F : Nat} {opt : Options} {c : Prop}

/-- The failures ahead in a state. -/
abbrev St.faults (st : St β) : List Nat := st.rj.b.reader.faults

theorem callAction_io (hC : Honest c cb) (p : Pseudo) (st : St β) :
    match callAction cb p st with
    | (st', .leave r) => ∀ {α : Type}, Reported c st.faults st'.faults (r.cast : SRes α)
    | (st', _) => Lost c st.faults st'.faults := by
  unfold callAction
  rcases hfi : cb.find p (.of st.pool) st.baton with ⟨b, _ | act⟩
  · exact .refl _ _
  · have h := hC p _ _ _ act st.rj hfi
    simp only
    rcases ha : act st.rj b with ⟨⟨s', b'⟩, (_ | _ | m) | _ | _⟩
    all_goals (rw [ha] at h; first | exact h | exact fun {α} => h)

theorem runEnd_io (st : St β) (a : Option (EndAction β)) : (runEnd st a).1.rj = st.rj ∧ ∀ e, (runEnd st a).2 = some e → ∃ m i, e = .action m i := by
  rcases a with _ | act
  · exact ⟨rfl, by simp [runEnd]⟩
  · simp only [runEnd]
    rcases act st.baton with ⟨b, _ | m⟩
    · exact ⟨rfl, by simp⟩
    · exact ⟨rfl, fun e h => ⟨m, _, by simpa using h.symm⟩⟩

theorem endStep_io (p : Pseudo) (ctx : Ctx) (st : St β) (pool : Pool) :
    (endStep cb p ctx st pool).1.rj = st.rj ∧ ∀ e, (endStep cb p ctx st pool).2 = some e → ∃ m i, e = .action m i := runEnd_io _ _

theorem topPos_io (st : St β) (m : String) : (∃ p, topPos st m = .ok p) ∨ (∃ i, topPos st m = .err (.internal i m)) ∨ topPos st m = .panic := by
  unfold topPos
  split
  · split
    · exact .inl ⟨_, rfl⟩
    · exact .inr (.inr rfl)
  · exact .inr (.inl ⟨_, rfl⟩)
  · exact .inr (.inr rfl)
  · exact .inr (.inr rfl)

theorem topPos_reported (st : St β) (m : String) {f f' : List Nat} (h : Lost c f f') : Reported c f f' (topPos st m) := by
  rcases topPos_io st m with ⟨p, e⟩ | ⟨i, e⟩ | e <;> rw [e]
  · exact h
  · exact h
  · exact h.weaken

theorem handleKey_io (hC : Honest c cb) (begin : Bool) (st : St β) :
    Reported c st.faults (handleKey F cb begin st).1.faults (handleKey F cb begin st).2 := by
  rw [handleKey_eq]
  have hrun : Told st.rj.b (if begin then st.rj.nextObjectBytes F else st.rj.nextKeyBytes F).1.b
      (if begin then st.rj.nextObjectBytes F else st.rj.nextKeyBytes F).2 := by
    split <;> exact RJ.loopUntilSuccess_told _ _ _ _ _
  generalize (if begin then st.rj.nextObjectBytes F else st.rj.nextKeyBytes F) = x at hrun ⊢
  rcases x with ⟨s', (_ | key) | e | _ | _⟩
  · simp only
    have he := endStep_io (cb := cb) .object (.of st.pool) { st with rj := s' } st.pool
    rcases hx : endStep cb .object (.of st.pool) { st with rj := s' } st.pool with ⟨st2, _ | e⟩ <;> rw [hx] at he
    · have h1 : st.faults = st2.faults := by simp only [St.faults]; rw [he.1]; exact hrun
      exact topPos_reported _ _ (.of h1)
    · have h1 : st.faults = st2.faults := by simp only [St.faults]; rw [he.1]; exact hrun
      obtain ⟨m, i, rfl⟩ := he.2 e rfl
      exact Lost.of h1
  · simp only
    rcases st.pool.pushAssoc posLayout [Pos.objectMiddle.byte] key with ⟨p, r | e | _⟩
    · simp only
      have ha := callAction_io (c := c) hC .none { st with rj := s', pool := p }
      rcases hx : callAction cb .none { st with rj := s', pool := p } with ⟨st2, _ | _ | r⟩ <;> rw [hx] at ha
      · exact Lost.trans (Lost.of hrun) ha
      · exact Lost.trans (Lost.of hrun) ha
      · exact Reported.from ha (Lost.of hrun)
    · simp only [keyPushError]
      split <;> exact Lost.of hrun
    · exact Lost.of hrun
  · exact Reported.ofTold hrun
  · exact Lost.of hrun
  · exact Lost.of hrun

theorem handleObject_io (hC : Honest c cb) (pos : Pos) (st : St β) :
    Reported c st.faults (handleObject F cb pos st).1.faults (handleObject F cb pos st).2 := by
  rw [handleObject_eq]
  split
  · have ha := callAction_io (c := c) hC .object st
    rcases hx : callAction cb .object st with ⟨st2, _ | _ | r⟩ <;> rw [hx] at ha
    · exact (handleKey_io hC true st2).from ha
    · exact topPos_reported _ _ ha
    · exact ha
  · rcases st.pool.popAssoc posLayout with ⟨p, r⟩
    have key : ∀ x : St β × SRes Pos, x = (match endStep cb .none (.of st.pool) st p with
          | (st, some e) => (st, .err e)
          | (st, none) => handleKey F cb false st) → Reported c st.faults x.1.faults x.2 := by
      intro x hx
      have he := endStep_io (cb := cb) .none (.of st.pool) st p
      rcases hy : endStep cb .none (.of st.pool) st p with ⟨st2, _ | e⟩ <;> rw [hy] at he hx <;> subst hx
      · have h1 : st.faults = st2.faults := by simp only [St.faults]; rw [he.1]
        exact (handleKey_io hC false st2).from (.of h1)
      · have h1 : st.faults = st2.faults := by simp only [St.faults]; rw [he.1]
        obtain ⟨m, i, rfl⟩ := he.2 e rfl
        exact Lost.of h1
    rcases r with _ | _ | _
    · exact key _ rfl
    · exact key _ rfl
    · exact Lost.refl _ _

theorem handleItem_io (begin : Bool) (st : St β) :
    Reported c st.faults (handleItem F cb begin st).1.faults (handleItem F cb begin st).2 := by
  rw [handleItem_eq]
  have hrun : Told st.rj.b (if begin then st.rj.knownArray F else st.rj.arrayStep F).1.b
      (if begin then st.rj.knownArray F else st.rj.arrayStep F).2 := by
    split <;> exact RJ.loopUntilSuccess_told _ _ _ _ _
  generalize (if begin then st.rj.knownArray F else st.rj.arrayStep F) = x at hrun ⊢
  rcases x with ⟨s', (_ | key) | e | _ | _⟩
  · simp only
    rcases st.pool.popAssoc posLayout with ⟨p, (_ | _) | _ | _⟩
    · exact Lost.of hrun
    · simp only
      have he := endStep_io (cb := cb) .array (.of p) { st with rj := s', pool := p } p
      rcases hx : endStep cb .array (.of p) { st with rj := s', pool := p } p with ⟨st2, _ | e⟩ <;> rw [hx] at he
      · have h1 : st.faults = st2.faults := by simp only [St.faults]; rw [he.1]; exact hrun
        simp only
        rcases topPos_io st2 "Context stack is empty when ending array" with ⟨p, e⟩ | ⟨i, e⟩ | e <;> rw [e] <;> exact Lost.of h1
      · have h1 : st.faults = st2.faults := by simp only [St.faults]; rw [he.1]; exact hrun
        obtain ⟨m, i, rfl⟩ := he.2 e rfl
        exact Lost.of h1
    · exact Lost.of hrun
    · exact Lost.of hrun
  · exact Lost.of hrun
  · exact Reported.ofTold hrun
  · exact Lost.of hrun
  · exact Lost.of hrun

theorem handleArray_io (hC : Honest c cb) (pos : Pos) (st : St β) :
    Reported c st.faults (handleArray F cb pos st).1.faults (handleArray F cb pos st).2 := by
  unfold handleArray
  split
  · have ha := callAction_io (c := c) hC .array st
    rcases hx : callAction cb .array st with ⟨st2, _ | _ | r⟩ <;> rw [hx] at ha
    · simp only
      rcases st2.pool.pushAssoc posLayout [Pos.arrayMiddle.byte] nameArray with ⟨p, r | e | _⟩
      · exact Reported.from (handleItem_io (cb := cb) (F := F) true { st2 with pool := p }) ha
      · exact ha
      · exact Lost.weaken ha
    · simp only
      rcases topPos_io st2 "Context stack is empty when handling ValueIsConsumed in array" with ⟨p, e⟩ | ⟨i, e⟩ | e <;> rw [e] <;> first | exact ha | exact Lost.weaken ha
    · exact ha
  · exact handleItem_io _ _

/-- Skipping a value: a failure may be hidden behind an `UnhandledPeek`, or be the error. -/
def SkipIo (f : List Nat) (x : RJ × SRes Unit) : Prop :=
  match x with
  | (s', .err _) => f = s'.b.reader.faults ∨ ∃ k, f = k :: s'.b.reader.faults
  | (s', _) => f = s'.b.reader.faults

theorem skipBasic_io (ch : Byte) (s : RJ) : SkipIo s.b.reader.faults (skipBasic F ch s) := by
  have hdrop : ∀ {α : Type} {x : RJ × Res α}, Told s.b x.1.b x.2 → SkipIo s.b.reader.faults (dropValue x) := by
    intro α x hx
    rcases x with ⟨s', v | ⟨_ | _ | k | _, i⟩ | _ | _⟩
    all_goals first | exact hx | exact .inl hx | exact .inr ⟨_, hx.1⟩
  unfold skipBasic
  split
  · apply hdrop
    have h := RJ.handleLong_toldW .raw F s ⟨[], []⟩
    show Told s.b (RJ.handleLong .raw F s ⟨[], []⟩).1.1.b (RJ.handleLong .raw F s ⟨[], []⟩).2
    revert h
    rcases (RJ.handleLong .raw F s ⟨[], []⟩).2 with _ | ⟨_ | _ | k | _, i⟩ | _ | _
    all_goals intro h
    all_goals first
      | exact h.1
      | (rcases h with h | h
         · exact ⟨h.1, h.2.1⟩
         · simp [Writer.faults] at h)
  · split
    · exact hdrop (RJ.loopUntilSuccess_told _ _ _ _ _)
    · split
      · exact hdrop (RJ.loopUntilSuccess_told _ _ _ _ _)
      · have h : Told s.b (s.nextNumberBytes F).1.b (s.nextNumberBytes F).2 := RJ.loopUntilSuccess_told _ _ _ _ _
        generalize s.nextNumberBytes F = x at h ⊢
        rcases x with ⟨s', v | ⟨_ | _ | k | _, i⟩ | _ | _⟩
        all_goals first | exact h | exact .inl h | exact .inr ⟨_, h.1⟩

theorem skipSse_io (l : List Bytes) : ∀ (s : RJ), Lost (l = []) s.b.reader.faults (skipSse F l s).1.b.reader.faults ∧
    ∀ e, (skipSse F l s).2 ≠ some (.err e) := by
  induction l with
  | nil => intro s; exact ⟨.refl _ _, by simp [skipSse]⟩
  | cons t l ih =>
    intro s
    have h := RJ.knownSkipToken_told F s t
    simp only [skipSse]
    generalize s.knownSkipToken F t = x at h ⊢
    have hl : ∀ {f g : List Nat}, Lost False f g → Lost (t :: l = []) f g :=
      fun ⟨m, e, _⟩ => ⟨m, e, by simp⟩
    rcases x with ⟨s', v | ⟨_ | _ | k | _, i⟩ | _ | _⟩
    · exact ⟨.of h, by simp⟩
    · exact ⟨hl ((Lost.of h).trans (ih s').1.weaken), (ih s').2⟩
    · exact ⟨hl ((Lost.of h).trans (ih s').1.weaken), (ih s').2⟩
    · exact ⟨hl ((Lost.of (c := False) h.1).cons.trans (ih s').1.weaken), (ih s').2⟩
    · exact ⟨hl ((Lost.of h).trans (ih s').1.weaken), (ih s').2⟩
    · exact ⟨.of h, by simp⟩
    · exact ⟨.of h, by simp⟩

/-- The result of a turn. -/
def TurnIo (c : Prop) (f f' : List Nat) : Step → Prop
  | .next _ => Lost c f f'
  | .done r => Reported c f f' r

theorem TurnIo.from {f g h : List Nat} {r : Step} (h1 : Lost c f g) (h2 : TurnIo c g h r) : TurnIo c f h r := by
  cases r
  · exact h1.trans h2
  · exact Reported.from h2 h1

theorem onValue_io (hC : Honest c cb) (hc : c → opt.sseTokens = []) (ch : Byte) (pos : Pos) (st : St β) :
    TurnIo (c) st.faults (onValue F cb opt ch pos st).1.faults (onValue F cb opt ch pos st).2 := by
  rw [onValue_eq]
  split
  · exact Lost.refl _ _
  · split
    · exact Lost.refl _ _
    · have ha := callAction_io (c := c) hC .atom st
      rcases hx : callAction cb .atom st with ⟨st2, _ | _ | r⟩ <;> rw [hx] at ha
      · simp only [skipStep]
        have hs := skipBasic_io (F := F) ch st2.rj
        apply TurnIo.from ha
        rcases hy : skipBasic F ch st2.rj with ⟨s', _ | e | _ | _⟩ <;> rw [hy] at hs
        · exact Lost.of hs
        · simp only
          have hhid : Reported (α := Unit) (c) st2.faults s'.b.reader.faults (.err (.unhandledPeek ch s'.currentIndex)) := by
            rcases hs with hs | ⟨k, hs⟩
            · exact .inl (.of hs)
            · exact .inr ⟨k, .of hs⟩
          split
          · have ht := skipSse_io (F := F) opt.sseTokens s'
            have hs' : Lost False st2.faults s'.b.reader.faults := by
              rcases hs with hs | ⟨k, hs⟩
              · exact .of hs
              · exact (Lost.of (c := False) hs).cons
            by_cases htok : opt.sseTokens = []
            · rw [htok] at ht ⊢
              exact hhid
            · have hl : ∀ {f g : List Nat}, Lost False f g → Lost (c) f g :=
                fun ⟨m, e, _⟩ => ⟨m, e, fun h => absurd (hc h) htok⟩
              rcases hz : skipSse F opt.sseTokens s' with ⟨s2, _ | _ | e | _ | _⟩ <;> rw [hz] at ht
              · exact .inl (hl (hs'.trans ht.1.weaken))
              · exact hl (hs'.trans ht.1.weaken)
              · exact absurd rfl (ht.2 e)
              · exact hs'.trans ht.1.weaken
              · exact hs'.trans ht.1.weaken
          · exact hhid
        · exact Lost.of hs
        · exact Lost.of hs
      · exact ha
      · exact ha

theorem turn_io (hC : Honest c cb) (hc : c → opt.sseTokens = []) (pos : Pos) (st : St β) :
    TurnIo (c) st.faults (turn F cb opt pos st).1.faults (turn F cb opt pos st).2 := by
  unfold turn
  split
  · have h := handleObject_io (c := c) (F := F) hC pos st
    generalize handleObject F cb pos st = x at h ⊢
    rcases x with ⟨st', _ | _ | _ | _⟩ <;> first | exact h | exact h.err
  · split
    · have h := handleArray_io (c := c) (F := F) hC pos st
      generalize handleArray F cb pos st = x at h ⊢
      rcases x with ⟨st', ⟨_ | ch, p⟩ | _ | _ | _⟩
      · exact h
      · simp only
        split
        · have h2 := onValue_io (F := F) (opt := opt) hC hc ch .arrayMiddle st'
          rcases hy : onValue F cb opt ch .arrayMiddle st' with ⟨st2, _ | r⟩ <;> rw [hy] at h2
          · exact Lost.trans h h2
          · exact Reported.from h2 h
        · exact h
      all_goals first | exact h | exact h.err
    · have h : Told st.rj.b (st.rj.peek F).1.b (st.rj.peek F).2 := RJ.loopUntilSuccess_told _ _ _ _ _
      generalize st.rj.peek F = x at h ⊢
      rcases x with ⟨s', ch | e | _ | _⟩
      · simp only
        have h2 := onValue_io (F := F) (opt := opt) hC hc ch (if pos = .objectBetweenKV then .objectMiddle else pos) { st with rj := s' }
        rcases hy : onValue F cb opt ch (if pos = .objectBetweenKV then .objectMiddle else pos) { st with rj := s' } with ⟨st2, _ | r⟩ <;>
          rw [hy] at h2
        · exact Lost.trans (Lost.of h) h2
        · exact Reported.from h2 (Lost.of h)
      · simp only
        split
        · rename_i he
          have h1 : st.rj.b.reader.faults = s'.b.reader.faults := by
            rcases e with ⟨_ | _ | k | _, i⟩
            all_goals first | exact h | simp at he
          split
          · exact Lost.of h1
          · have hfin := RJ.finishLoop_told F s'
            change Told s'.b (s'.finish F).1.b (s'.finish F).2 at hfin
            generalize s'.finish F = y at hfin ⊢
            rcases y with ⟨s2, v | e | _ | _⟩
            · exact Lost.of (Eq.trans h1 hfin)
            · exact Reported.from (Reported.ofTold hfin) (Lost.of h1)
            · exact Lost.of (Eq.trans h1 hfin)
            · exact Lost.of (Eq.trans h1 hfin)
        · exact Reported.ofTold h
      · exact Lost.of h
      · exact Lost.of h

theorem mainLoop_io (hC : Honest c cb) (hc : c → opt.sseTokens = []) : ∀ (n : Nat) (g : Bool) (pos : Pos) (st : St β),
    Reported (c) st.faults (mainLoop F cb opt n g pos st).1.faults (mainLoop F cb opt n g pos st).2 := by
  intro n
  induction n with
  | zero => intro g pos st; exact Lost.refl _ _
  | succ n ih =>
    intro g pos st
    simp only [mainLoop]
    split
    · exact Lost.refl _ _
    · have h := turn_io (F := F) (opt := opt) hC hc pos st
      rcases hy : turn F cb opt pos st with ⟨st2, p | r⟩ <;> rw [hy] at h
      · exact (ih _ _ _).from h
      · exact h

theorem scan_io (hC : Honest c cb) (hc : c → opt.sseTokens = []) (turns : Nat) (st : St β) :
    Reported (c) st.faults (scan turns F cb opt st).1.faults (scan turns F cb opt st).2 := by
  unfold scan
  rcases st.pool.pushAssoc posLayout [Pos.top.byte] nameTop with ⟨p, r | e | _⟩
  · exact mainLoop_io hC hc turns false .top { st with pool := p }
  · exact Lost.refl _ _
  · exact Lost.refl _ _

end Verif.Scan
