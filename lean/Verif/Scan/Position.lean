import Verif.RJiter.ErrIndex
import Verif.RJiter.PropsErr
import Verif.Scan.Returns

/-!
# The position in an error of `scan`
-/

namespace Verif.Scan

open Verif.RJiter
open Verif.RJiter.Jiter
open Verif.U8Pool (Pool PRes PoolError)

variable {β : Type}

/-! ## Specification -/

/-- What an action may do: it may go on inside of the input, and it keeps the client's state in `K`. After an error, only the position has
to be in the input. -/
def KeepsTo (K : β → Prop) (s : RJ) (x : (RJ × β) × Acted) : Prop :=
  match x with
  | ((s', b), .op .none) => (s.Near s' ∧ s'.Sync) ∧ K b
  | ((s', b), .op .valueIsConsumed) => (s.Near s' ∧ s'.Sync) ∧ K b
  | ((s', _), .op (.error _)) => s.currentIndex ≤ s'.currentIndex ∧ s'.currentIndex ≤ s.currentIndex + s.rest.length
  | (_, .panic) => True
  | (_, .diverge) => True

/-- Callbacks whose actions keep to that as long as the reader does not fail. -/
structure Steady (cb : Callbacks β) (F : Nat) (K : β → Prop) : Prop where
  find : ∀ (p : Pseudo) (c : Ctx) (b : β) (s : RJ), K b → Usable F s → s.b.reader.Clean →
    match cb.find p c b with
    | (b', none) => K b'
    | (b', some a) => KeepsTo K s (a s b')
  finish : ∀ (p : Pseudo) (c : Ctx) (b : β), K b →
    match cb.findEnd p c b with
    | (b', none) => K b'
    | (b', some a) => (a b').2 = none → K (a b').1

/-- The position in an error of `scan`, from `first` to `last`, or for an error of the parser, up to `slack` behind. `now` is where the
parser is. -/
def Placed (first last slack now : Nat) : SErr → Prop
  | .rjiter e => first ≤ e.index ∧ e.index ≤ last + slack
  | .unhandledPeek _ p => p = now ∧ first ≤ p ∧ p ≤ last
  | .unbalancedJson p => p = now ∧ first ≤ p ∧ p ≤ last
  | .internal p _ => p = now ∧ first ≤ p ∧ p ≤ last
  | .maxNesting p _ => p = now ∧ first ≤ p ∧ p ≤ last
  | .action _ p => p = now ∧ first ≤ p ∧ p ≤ last
  | .io _ => False

/-! ## Proof -/

variable {cb : Callbacks β} {F : Nat} {K : β → Prop} {opt : Options}

/-- The place of an error, from a state. -/
def AtPlace (s0 s : RJ) (e : SErr) : Prop := Placed s0.currentIndex (s0.currentIndex + s0.rest.length) (s0.b.buf.length + 4) s.currentIndex e

theorem AtPlace.trans {s0 s1 s : RJ} {e : SErr} (h : s0.Near s1) (ha : AtPlace s1 s e) : AtPlace s0 s e := by
  have h1 := h.index.1
  have h2 := h.stop
  have h3 := h.loose.buf
  unfold AtPlace at *
  cases e <;> simp only [Placed] at * <;> omega

theorem AtPlace.near {s0 s : RJ} (h : s0.Near s) : ∀ {e : SErr}, (∀ er, e ≠ .rjiter er) → (∀ k, e ≠ .io k) → (s.currentIndex = match e with
    | .rjiter er => er.index
    | .unhandledPeek _ p => p
    | .unbalancedJson p => p
    | .internal p _ => p
    | .maxNesting p _ => p
    | .action _ p => p
    | .io _ => 0) → AtPlace s0 s e := by
  have h1 := h.index
  intro e he hi hp
  unfold AtPlace
  cases e
  case rjiter er => exact absurd rfl (he er)
  case io k => exact absurd rfl (hi k)
  all_goals simp only at hp; rw [← hp]; exact ⟨rfl, h1⟩

theorem AtPlace.off {s0 s : RJ} {er : Err} (h : Off s0 s er) : AtPlace s0 s (.rjiter er) := ⟨h.back, by have := h.bound; omega⟩

/-- A parser between two calls whose reader does not fail, later than `s0`. -/
structure Along (F : Nat) (s0 s : RJ) : Prop where
  use : Usable F s
  clean : s.b.reader.Clean
  near : s0.Near s

theorem Along.go {s0 s s' : RJ} (h : Along F s0 s) (hn : s.Near s') (hs : s'.Sync) : Along F s0 s' :=
  ⟨⟨hs, by rw [hn.loose.buf]; exact h.use.len, by have := hn.loose.size; have := h.use.fuel; unfold enoughFuel at *; omega⟩, hn.loose.clean h.clean,
    h.near.trans hn⟩

theorem Along.moved {s0 s s' : RJ} {n : Nat} (h : Along F s0 s) (hm : s.Moved s' n) : Along F s0 s' := h.go (.ofMoved hm) hm.sync

/-- A state between two steps. -/
structure OnWay (F : Nat) (K : β → Prop) (s0 : RJ) (st : St β) : Prop where
  along : Along F s0 st.rj
  keeps : K st.baton

/-- The state is what an action with an error left. -/
def Blamed (cb : Callbacks β) (F : Nat) (K : β → Prop) (s0 : RJ) (st : St β) : Prop :=
  (∃ s b p c b' a m, Along F s0 s ∧ K b ∧ cb.find p c b = (b', some a) ∧ a s b' = ((st.rj, st.baton), .op (.error m))) ∨
  ∃ b p c b' a m, Along F s0 st.rj ∧ K b ∧ cb.findEnd p c b = (b', some a) ∧ a b' = (st.baton, some m)

/-- The end with an error: the position is right, and only an action leaves the client in another state. -/
def EndedAt (cb : Callbacks β) (F : Nat) (K : β → Prop) (s0 : RJ) (st : St β) (e : SErr) : Prop :=
  AtPlace s0 st.rj e ∧ (K st.baton ∨ ∃ m p, e = .action m p ∧ Blamed cb F K s0 st)

theorem OnWay.use {s0 : RJ} {st : St β} (h : OnWay F K s0 st) : Usable F st.rj := h.along.use
theorem OnWay.clean {s0 : RJ} {st : St β} (h : OnWay F K s0 st) : st.rj.b.reader.Clean := h.along.clean
theorem OnWay.near {s0 : RJ} {st : St β} (h : OnWay F K s0 st) : s0.Near st.rj := h.along.near
theorem OnWay.moved {s0 rj : RJ} {n : Nat} {st : St β} (h : OnWay F K s0 st) (hm : st.rj.Moved rj n) (pool : Pool) :
    OnWay F K s0 { st with rj := rj, pool := pool } := ⟨h.along.moved hm, h.keeps⟩
theorem OnWay.off {s0 rj : RJ} {st : St β} {er : Err} (h : OnWay F K s0 st) (ho : Off st.rj rj er) :
    EndedAt cb F K s0 { st with rj := rj } (.rjiter er) := ⟨AtPlace.trans h.near (.off ho), .inl h.keeps⟩

/-- An error at the place where the parser is. -/
theorem OnWay.ended {s0 : RJ} {st : St β} (h : OnWay F K s0 st) {e : SErr} (he : AtPlace s0 st.rj e) : EndedAt cb F K s0 st e := ⟨he, .inl h.keeps⟩

/-- The result of a function: the state goes along, or the position of the error is right. -/
def Goes {α : Type} (cb : Callbacks β) (F : Nat) (K : β → Prop) (s0 : RJ) (x : St β × SRes α) : Prop :=
  match x with
  | (st', .ok _) => OnWay F K s0 st'
  | (st', .err e) => EndedAt cb F K s0 st' e
  | (_, .panic) => True
  | (_, .diverge) => True

theorem callAction_along (hC : Steady cb F K) (p : Pseudo) {s0 : RJ} {st : St β} (h : OnWay F K s0 st) :
    match callAction cb p st with
    | (st', .go) => OnWay F K s0 st'
    | (st', .consumed) => OnWay F K s0 st'
    | (st', .leave r) => ∀ {α : Type}, Goes cb F K s0 (st', (r.cast : SRes α)) := by
  unfold callAction
  have := hC.find p (.of st.pool) st.baton st.rj h.keeps h.use h.clean
  rcases hfi : cb.find p (.of st.pool) st.baton with ⟨b, _ | act⟩
  · rw [hfi] at this
    exact ⟨h.along, this⟩
  · rw [hfi] at this
    simp only at this ⊢
    rcases ha : act st.rj b with ⟨⟨s', b'⟩, (_ | _ | m) | _ | _⟩
    · rw [ha] at this; exact ⟨h.along.go this.1.1 this.1.2, this.2⟩
    · rw [ha] at this; exact ⟨h.along.go this.1.1 this.1.2, this.2⟩
    · rw [ha] at this
      intro α
      exact ⟨AtPlace.trans h.near (show AtPlace st.rj s' (.action m s'.currentIndex) from ⟨rfl, this⟩), .inr ⟨_, _, rfl, .inl ⟨_, _, _, _, _, _, _, h.along, h.keeps, hfi, ha⟩⟩⟩
    · intro α; trivial
    · intro α; trivial

theorem runEnd_along (hC : Steady cb F K) (p : Pseudo) (c : Ctx) (pool : Pool) {s0 : RJ} {st : St β} (h : OnWay F K s0 st) :
    match runEnd { st with baton := (cb.findEnd p c st.baton).1, pool := pool } (cb.findEnd p c st.baton).2 with
    | (st', none) => OnWay F K s0 st'
    | (st', some e) => EndedAt cb F K s0 st' e := by
  have := hC.finish p c st.baton h.keeps
  rcases hfi : cb.findEnd p c st.baton with ⟨b, _ | a⟩
  · rw [hfi] at this; exact ⟨h.along, this⟩
  · rw [hfi] at this
    simp only [runEnd] at this ⊢
    revert this
    rcases ha : a b with ⟨b, _ | m⟩
    · intro h1; exact ⟨h.along, h1 rfl⟩
    · intro _; exact ⟨AtPlace.near h.near (by simp) (by simp) rfl, .inr ⟨_, _, rfl, .inr ⟨_, _, _, _, _, _, h.along, h.keeps, hfi, ha⟩⟩⟩

theorem topPos_along (m : String) {s0 : RJ} {st : St β} (h : OnWay F K s0 st) : Goes cb F K s0 (st, topPos st m) := by
  unfold topPos
  rcases st.pool.topAssocObj posLayout with (_ | bs) | e | _
  · exact h.ended (AtPlace.near h.near (by simp) (by simp) rfl)
  · simp only
    split
    · exact h
    · trivial
  · trivial
  · trivial

theorem keyPushError_at (e : PoolError) {s0 s : RJ} (h : s0.Near s) : AtPlace s0 s (keyPushError e s.currentIndex) := by
  cases e <;> exact AtPlace.near h (by simp [keyPushError]) (by simp [keyPushError]) rfl

theorem handleKey_along (hC : Steady cb F K) (begin : Bool) {s0 : RJ} {st : St β} (h : OnWay F K s0 st) : Goes cb F K s0 (handleKey F cb begin st) := by
  have hl : 2 ≤ st.rj.b.buf.length := by have := h.use.len; omega
  have hx : match (if begin then st.rj.nextObjectBytes F else st.rj.nextKeyBytes F) with
      | (rj, .ok _) => ∃ n, st.rj.Moved rj n
      | (rj, .err e) => Off st.rj rj e
      | (_, .panic) => True
      | (_, .diverge) => True := by
    have k1 := RJ.nextObjectBytes_runs h.use.sync hl h.use.fuel
    have k2 := RJ.nextKeyBytes_runs h.use.sync hl h.use.fuel
    cases begin
    · rcases hx : st.rj.nextKeyBytes F with ⟨rj, v | e | _ | _⟩ <;> rw [hx] at k2
      · obtain ⟨n, _, hm⟩ := k2
        exact ⟨n, hm⟩
      · exact loopUntilSuccess_off (nextKey_jsound knownBytes_prefix) nextKey_inside h.use.sync hl h.use.fuel h.clean hx
      · trivial
      · trivial
    · rcases hx : st.rj.nextObjectBytes F with ⟨rj, v | e | _ | _⟩ <;> rw [hx] at k1
      · obtain ⟨n, _, hm⟩ := k1
        exact ⟨n, hm⟩
      · exact loopUntilSuccess_off (nextObject_jsound knownBytes_prefix) nextObject_inside h.use.sync hl h.use.fuel h.clean hx
      · trivial
      · trivial
  unfold handleKey
  revert hx
  rcases (if begin then st.rj.nextObjectBytes F else st.rj.nextKeyBytes F) with ⟨rj, (_ | key) | e | _ | _⟩
  · rintro ⟨n, hm⟩
    simp only
    have := runEnd_along hC .object (.of st.pool) st.pool (h.moved hm st.pool)
    revert this
    rcases runEnd { st with rj := rj, baton := (cb.findEnd .object (.of st.pool) st.baton).1 } (cb.findEnd .object (.of st.pool) st.baton).2 with ⟨st', _ | e⟩
    · intro h1; exact topPos_along _ h1
    · exact id
  · rintro ⟨n, hm⟩
    simp only
    rcases st.pool.pushAssoc posLayout [Pos.objectMiddle.byte] key with ⟨p, v | e | _⟩
    · have := callAction_along hC .none (h.moved hm p)
      revert this
      simp only
      rcases callAction cb .none { st with rj := rj, pool := p } with ⟨st', _ | _ | r⟩
      · exact id
      · exact id
      · intro h1; exact h1
    · exact (h.moved hm p).ended (keyPushError_at e (h.moved hm p).near)
    · trivial
  · intro ho
    exact h.off ho
  · intro _; trivial
  · intro _; trivial

theorem handleObject_along (hC : Steady cb F K) (pos : Pos) {s0 : RJ} {st : St β} (h : OnWay F K s0 st) : Goes cb F K s0 (handleObject F cb pos st) := by
  unfold handleObject
  split
  · have := callAction_along hC .object h
    revert this
    rcases callAction cb .object st with ⟨st', _ | _ | r⟩
    · intro h1; exact handleKey_along hC true h1
    · intro h1; exact topPos_along _ h1
    · intro h1; exact h1
  · simp only
    have hgo : ∀ p : Pool, Goes cb F K s0 (match runEnd { st with baton := (cb.findEnd .none (.of st.pool) st.baton).1, pool := p }
          (cb.findEnd .none (.of st.pool) st.baton).2 with
        | (st, some e) => (st, .err e)
        | (st, none) => handleKey F cb false st) := by
      intro p
      have := runEnd_along hC .none (.of st.pool) p h
      revert this
      rcases runEnd { st with baton := (cb.findEnd .none (.of st.pool) st.baton).1, pool := p } (cb.findEnd .none (.of st.pool) st.baton).2 with
        ⟨st', _ | e⟩
      · intro h1; exact handleKey_along hC false h1
      · exact id
    rcases st.pool.popAssoc posLayout with ⟨p, v | e | _⟩
    · exact hgo p
    · exact hgo p
    · trivial

theorem handleItem_along (hC : Steady cb F K) (begin : Bool) {s0 : RJ} {st : St β} (h : OnWay F K s0 st) : Goes cb F K s0 (handleItem F cb begin st) := by
  have hl : 2 ≤ st.rj.b.buf.length := by have := h.use.len; omega
  have hx : match (if begin then st.rj.knownArray F else st.rj.arrayStep F) with
      | (rj, .ok _) => ∃ n, st.rj.Moved rj n
      | (rj, .err e) => Off st.rj rj e
      | (_, .panic) => True
      | (_, .diverge) => True := by
    have k1 := RJ.knownArray_runs h.use.sync hl h.use.fuel
    have k2 := RJ.arrayStep_runs h.use.sync hl h.use.fuel
    cases begin
    · rcases hx : st.rj.arrayStep F with ⟨rj, v | e | _ | _⟩ <;> rw [hx] at k2
      · obtain ⟨n, _, hm⟩ := k2
        exact ⟨n, hm⟩
      · exact loopUntilSuccess_off arrayStep_jsound arrayStep_inside h.use.sync hl h.use.fuel h.clean hx
      · trivial
      · trivial
    · rcases hx : st.rj.knownArray F with ⟨rj, v | e | _ | _⟩ <;> rw [hx] at k1
      · obtain ⟨n, _, hm⟩ := k1
        exact ⟨n, hm⟩
      · exact loopUntilSuccess_off knownArray_jsound knownArray_inside h.use.sync hl h.use.fuel h.clean hx
      · trivial
      · trivial
  unfold handleItem
  revert hx
  rcases (if begin then st.rj.knownArray F else st.rj.arrayStep F) with ⟨rj, (_ | c) | e | _ | _⟩
  · rintro ⟨n, hm⟩
    simp only
    rcases st.pool.popAssoc posLayout with ⟨p, (_ | v) | e | _⟩
    · exact (h.moved hm p).ended (AtPlace.near (h.moved hm p).near (by simp) (by simp) rfl)
    · simp only
      have := runEnd_along hC .array (.of p) p (h.moved hm p)
      revert this
      rcases runEnd { st with rj := rj, baton := (cb.findEnd .array (.of p) st.baton).1, pool := p } (cb.findEnd .array (.of p) st.baton).2 with ⟨st', _ | e⟩
      · intro h1
        have := topPos_along (cb := cb) "Context stack is empty when ending array" h1
        revert this
        simp only
        rcases topPos st' "Context stack is empty when ending array" with p | e | _ | _ <;> exact id
      · exact id
    · trivial
    · trivial
  · rintro ⟨n, hm⟩
    exact h.moved hm st.pool
  · intro ho
    exact h.off ho
  · intro _; trivial
  · intro _; trivial

theorem handleArray_along (hC : Steady cb F K) (pos : Pos) {s0 : RJ} {st : St β} (h : OnWay F K s0 st) : Goes cb F K s0 (handleArray F cb pos st) := by
  unfold handleArray
  split
  · have := callAction_along hC .array h
    revert this
    rcases callAction cb .array st with ⟨st', _ | _ | r⟩
    · intro h1
      simp only
      rcases st'.pool.pushAssoc posLayout [Pos.arrayMiddle.byte] nameArray with ⟨p, v | e | _⟩
      · exact handleItem_along hC true (st := { st' with pool := p }) ⟨h1.along, h1.keeps⟩
      · exact (show OnWay F K s0 { st' with pool := p } from ⟨h1.along, h1.keeps⟩).ended (AtPlace.near h1.near (by simp) (by simp) rfl)
      · trivial
    · intro h1
      have := topPos_along (cb := cb) "Context stack is empty when handling ValueIsConsumed in array" h1
      revert this
      simp only
      rcases topPos st' "Context stack is empty when handling ValueIsConsumed in array" with p | e | _ | _ <;> exact id
    · intro h1; exact h1
  · exact handleItem_along hC false h

/-- A value could not be skipped. -/
theorem skipBasic_near {c : Byte} {s s' : RJ} {e : SErr} (hf : Usable F s) (hcl : s.b.reader.Clean)
    (h : skipBasic F c s = (s', .err e)) : s.Near s' := by
  refine .ofLoose (skipBasic_errs hf hcl h) ?_ hf.sync.ok hf.sync.idx
  have hdrop : ∀ {α : Type} {x : RJ × Res α}, dropValue x = (s', .err e) → s' = x.1 := by
    intro α x hx
    simp only [dropValue, Prod.mk.injEq] at hx
    exact hx.1.symm
  unfold skipBasic at h
  split at h
  · rw [hdrop h]
    exact RJ.handleLong_reach .raw F s ⟨[], []⟩
  · split at h
    · rw [hdrop h]
      exact RJ.loopUntilSuccess_reach ..
    · split at h
      · rw [hdrop h]
        exact RJ.loopUntilSuccess_reach ..
      · have hr : Reach s.b (s.nextNumberBytes F).1.b := RJ.loopUntilSuccess_reach ..
        rcases hx : s.nextNumberBytes F with ⟨s2, v | er | _ | _⟩ <;> rw [hx] at h hr <;> simp at h
        rw [← h.1]; exact hr

theorem skipSse_near {tokens : List Bytes} {s0 : RJ} (hu : Usable F s0) (hcl : s0.b.reader.Clean) :
    ∀ s, s0.Near s →
    match skipSse F tokens s with
    | (s2, some (.ok ())) => s0.Near s2 ∧ s2.Sync
    | (s2, none) => s0.Near s2
    | (_, some (.err _)) => False
    | (_, some .panic) => True
    | (_, some .diverge) => True := by
  induction tokens with
  | nil => intro s h; exact h
  | cons t ts ih =>
    intro s hs
    have hfu : s.b.reader.size < F := by have := hs.loose.size; have := hu.fuel; unfold enoughFuel at this; omega
    have hr : Reach s.b (s.knownSkipToken F t).1.b := RJ.knownSkipToken_reach F s t
    unfold skipSse
    rcases RJ.knownSkipToken_loose s t F hs.loose.ok hs.loose.idx (by have := hs.loose.buf; have := hu.len; omega) hfu (hs.loose.clean hcl) with
      ⟨s2, n, e, h1, h2, h3, h4, h5, h6⟩ | ⟨s2, e, e1, h1⟩
    · rw [e] at hr ⊢
      exact ⟨hs.trans (.ofLoose ⟨h1.ok, h1.idx, h4, h5, by omega, fun _ => h6⟩ hr hs.loose.ok hs.loose.idx), h1⟩
    · rw [e1] at hr ⊢
      exact ih s2 (hs.trans (.ofLoose h1 hr hs.loose.ok hs.loose.idx))

/-- A turn of the loop. -/
def Steps (cb : Callbacks β) (F : Nat) (K : β → Prop) (s0 : RJ) (x : St β × Step) : Prop :=
  match x with
  | (st', .next _) => OnWay F K s0 st'
  | (st', .done (.err e)) => EndedAt cb F K s0 st' e
  | (_, .done (.ok ())) => True
  | (_, .done .panic) => True
  | (_, .done .diverge) => True

theorem onValue_along (hC : Steady cb F K) (c : Byte) (pos : Pos) {s0 : RJ} {st : St β} (h : OnWay F K s0 st) : Steps cb F K s0 (onValue F cb opt c pos st) := by
  unfold onValue
  split
  · exact h
  split
  · exact h
  · have := callAction_along hC .atom h
    revert this
    rcases callAction cb .atom st with ⟨st', _ | _ | r⟩
    · intro h1
      simp only
      have hrun := skipBasic_runs (F := F) c h1.use
      rcases hx : skipBasic F c st'.rj with ⟨rj, u | e | _ | _⟩ <;> rw [hx] at hrun
      · obtain ⟨n, _, hm⟩ := hrun
        exact h1.moved hm st'.pool
      · have hn := skipBasic_near h1.use h1.clean hx
        simp only
        split
        · have := skipSse_near (tokens := opt.sseTokens) h1.use h1.clean rj hn
          revert this
          rcases skipSse F opt.sseTokens rj with ⟨rj2, _ | u | e | _ | _⟩
          · intro h2; exact ⟨AtPlace.near (h1.near.trans h2) (by simp) (by simp) rfl, .inl h1.keeps⟩
          · intro h2; exact ⟨h1.along.go h2.1 h2.2, h1.keeps⟩
          · intro h2; exact h2.elim
          · intro _; trivial
          · intro _; trivial
        · exact ⟨AtPlace.near (h1.near.trans hn) (by simp) (by simp) rfl, .inl h1.keeps⟩
      · trivial
      · trivial
    · exact id
    · intro h1
      have h1 := @h1 Unit
      revert h1
      simp only
      rcases (r.cast : SRes Unit) with u | e | _ | _
      · intro _; trivial
      · exact id
      · intro _; trivial
      · intro _; trivial

theorem finish_at {s0 s : RJ} (h : Along F s0 s) {s' : RJ} {e : Err} (hx : s.finish F = (s', .err e)) : AtPlace s0 s' (.rjiter e) := by
  have hf := h.use.fuel
  have hl := h.use.len
  unfold enoughFuel at hf
  have hfu : 2 * s.b.reader.size + (if s.b.nBytes = s.b.buf.length then 1 else 0) < F := by split <;> omega
  rcases finishLoop_spec F s h.use.sync (by omega) hfu with ⟨s2, e2, hw, hm⟩ | ⟨s2, x, ws, c, t, e2, hr, hw, hcw, hm⟩ | ⟨s2, kd, x, _, h1⟩
  · rw [RJ.finish, e2] at hx; simp at hx
  · have hx0 := hx
    rw [RJ.finish, e2] at hx
    simp only [Prod.mk.injEq, Res.err.injEq] at hx
    obtain ⟨rfl, rfl⟩ := hx
    have := C24_finish_twice s s2 F _ _ hx0 (by simp)
    refine AtPlace.trans h.near ⟨?_, ?_⟩
    · have := hm.index; simp only; omega
    · have h1 := (RJ.Near.ofMoved hm).index
      have h2 := hm.sync.idx
      have h3 := hm.sync.ok
      have h4 := hm.buf
      simp only; omega
  · exact absurd h.clean h1

theorem turn_along (hC : Steady cb F K) (pos : Pos) {s0 : RJ} {st : St β} (h : OnWay F K s0 st) : Steps cb F K s0 (turn F cb opt pos st) := by
  have hl : 2 ≤ st.rj.b.buf.length := by have := h.use.len; omega
  unfold turn
  split
  · have := handleObject_along hC pos h
    revert this
    rcases handleObject F cb pos st with ⟨st', p | e | _ | _⟩ <;> exact id
  · split
    · have := handleArray_along hC pos h
      revert this
      rcases handleArray F cb pos st with ⟨st', ⟨_ | c, p⟩ | e | _ | _⟩
      · exact id
      · intro h1
        simp only
        split
        · exact onValue_along hC c _ h1
        · exact h1.ended (AtPlace.near h1.near (by simp) (by simp) rfl)
      · exact id
      · exact id
      · exact id
    · have hp := RJ.peek_runs h.use.sync hl h.use.fuel
      rcases hx : st.rj.peek F with ⟨rj, c | e | _ | _⟩ <;> rw [hx] at hp
      · obtain ⟨n, _, hm⟩ := hp
        exact onValue_along hC c _ (h.moved hm st.pool)
      · have hoff := loopUntilSuccess_off peek_jsound peek_inside h.use.sync hl h.use.fuel h.clean hx
        have hm : ∃ n, st.rj.Moved rj n := by
          rcases RJ.loopUntilSuccess_errs peek_jsound RJ.peek_within h.use.sync hl h.use.fuel hx with hm | ⟨h4, _⟩
          · exact hm
          · exact absurd h.clean h4
        obtain ⟨n, hm⟩ := hm
        have h1 := h.moved hm st.pool
        simp only
        split
        · split
          · exact h1.ended (AtPlace.near h1.near (by simp) (by simp) rfl)
          · rcases hy : rj.finish F with ⟨rj2, u | e2 | _ | _⟩
            · trivial
            · exact ⟨finish_at h1.along hy, .inl h.keeps⟩
            · trivial
            · trivial
        · exact h.off hoff
      · trivial
      · trivial

theorem mainLoop_at (hC : Steady cb F K) {s0 : RJ} : ∀ (n : Nat) (progressed : Bool) (pos : Pos) (st st' : St β) (e : SErr), OnWay F K s0 st →
    mainLoop F cb opt n progressed pos st = (st', .err e) → EndedAt cb F K s0 st' e := by
  intro n
  induction n with
  | zero => intro _ _ _ _ _ _ h; simp [mainLoop] at h
  | succ n ih =>
    intro progressed pos st st' e h hx
    unfold mainLoop at hx
    split at hx
    · simp at hx
    · have := turn_along (opt := opt) hC pos h
      revert this hx
      rcases turn F cb opt pos st with ⟨st2, p | u | e2 | _ | _⟩
      · intro hx h1; exact ih _ _ _ _ _ h1 hx
      · intro hx; simp at hx
      · intro hx h1
        simp only [Prod.mk.injEq, SRes.err.injEq] at hx
        rw [← hx.1, ← hx.2]; exact h1
      · intro hx; simp at hx
      · intro hx; simp at hx

theorem scan_at (hC : Steady cb F K) {n : Nat} {st st' : St β} {e : SErr} (hu : Usable F st.rj) (hcl : st.rj.b.reader.Clean) (hk : K st.baton)
    (hx : scan n F cb opt st = (st', .err e)) : EndedAt cb F K st.rj st' e := by
  have h0 : Along F st.rj st.rj := ⟨hu, hcl, .ofMoved (.refl hu.sync)⟩
  unfold scan at hx
  revert hx
  rcases st.pool.pushAssoc posLayout [Pos.top.byte] nameTop with ⟨p, v | er | _⟩
  · intro hx
    exact mainLoop_at hC n false .top { st with pool := p } _ _ (s0 := st.rj) ⟨h0, hk⟩ hx
  · intro hx
    simp only [Prod.mk.injEq, SRes.err.injEq] at hx
    rw [← hx.1, ← hx.2]
    exact ⟨AtPlace.near h0.near (by simp) (by simp) rfl, .inl hk⟩
  · intro hx; simp at hx

end Verif.Scan
