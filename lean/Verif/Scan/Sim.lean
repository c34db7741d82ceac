import Verif.Scan.Model

/-!
# Two sets of callbacks that answer alike

A general tool, for any input: if two sets of callbacks answer alike as long as their states are related, then the
two scans go the same way, and the states stay related until an action fails.
-/

namespace Verif.Scan

open Verif.U8Pool (Pool PRes PoolError)
open Verif.RJiter (RJ Err Res JsonErr Writer)

/-! ## The functions of `scan` in terms of one call of an end action -/

section
variable {β : Type} (cb : Callbacks β)

/-- Finding and running an end action; `pool` is the pool it leaves. -/
def endStep (p : Pseudo) (c : Ctx) (st : St β) (pool : Pool) : St β × Option SErr :=
  runEnd { st with baton := (cb.findEnd p c st.baton).1, pool := pool } (cb.findEnd p c st.baton).2

theorem handleKey_eq (F : Nat) (begin : Bool) (st : St β) :
    handleKey F cb begin st =
      match (if begin then st.rj.nextObjectBytes F else st.rj.nextKeyBytes F) with
      | (rj, .ok none) =>
        match endStep cb .object (.of st.pool) { st with rj := rj } st.pool with
        | (st, some e) => (st, .err e)
        | (st, none) => (st, topPos st "Context stack is empty when ending object")
      | (rj, .ok (some key)) =>
        match st.pool.pushAssoc posLayout [Pos.objectMiddle.byte] key with
        | (p, .ok _) =>
          match callAction cb .none { st with rj := rj, pool := p } with
          | (st, .go) => (st, .ok .objectBetweenKV)
          | (st, .consumed) => (st, .ok .objectMiddle)
          | (st, .leave r) => (st, r.cast)
        | (p, .err e) => ({ st with rj := rj, pool := p }, .err (keyPushError e rj.currentIndex))
        | (p, .panic) => ({ st with rj := rj, pool := p }, .panic)
      | (rj, .err e) => ({ st with rj := rj }, .err (.rjiter e))
      | (rj, .panic) => ({ st with rj := rj }, .panic)
      | (rj, .diverge) => ({ st with rj := rj }, .diverge) := rfl

theorem handleObject_eq (F : Nat) (pos : Pos) (st : St β) :
    handleObject F cb pos st =
      if pos = .objectBegin then
        match callAction cb .object st with
        | (st, .go) => handleKey F cb true st
        | (st, .consumed) => (st, topPos st "Context stack is empty when handling ValueIsConsumed")
        | (st, .leave r) => (st, r.cast)
      else
        match st.pool.popAssoc posLayout with
        | (p, .panic) => ({ st with baton := (cb.findEnd .none (.of st.pool) st.baton).1, pool := p }, .panic)
        | (p, _) =>
          match endStep cb .none (.of st.pool) st p with
          | (st, some e) => (st, .err e)
          | (st, none) => handleKey F cb false st := rfl

theorem handleItem_eq (F : Nat) (begin : Bool) (st : St β) :
    handleItem F cb begin st =
      match (if begin then st.rj.knownArray F else st.rj.arrayStep F) with
      | (rj, .ok none) =>
        match st.pool.popAssoc posLayout with
        | (p, .ok (some _)) =>
          match endStep cb .array (.of p) { st with rj := rj, pool := p } p with
          | (st, some e) => (st, .err e)
          | (st, none) =>
            match topPos st "Context stack is empty when ending array" with
            | .ok pos => (st, .ok (none, pos))
            | .err e => (st, .err e)
            | .panic => (st, .panic)
            | .diverge => (st, .diverge)
        | (p, .ok none) =>
          ({ st with rj := rj, pool := p }, .err (.internal rj.currentIndex "Context stack is empty when ending array"))
        | (p, _) => ({ st with rj := rj, pool := p }, .panic)
      | (rj, .ok (some c)) => ({ st with rj := rj }, .ok (some c, .arrayMiddle))
      | (rj, .err e) => ({ st with rj := rj }, .err (.rjiter e))
      | (rj, .panic) => ({ st with rj := rj }, .panic)
      | (rj, .diverge) => ({ st with rj := rj }, .diverge) := rfl

/-- Stepping over a value nobody asked for. -/
def skipStep (F : Nat) (opt : Options) (c : Byte) (pos : Pos) (rj : RJ) (b : β) (pool : Pool) : St β × Step :=
  match skipBasic F c rj with
  | (rj, .ok ()) => (⟨rj, b, pool⟩, .next pos)
  | (rj, .err _) =>
    if pos = .top ∨ ((pos = .arrayBegin ∨ pos = .arrayMiddle) ∧ pool.len = 2) then
      match skipSse F opt.sseTokens rj with
      | (rj, some (.ok ())) => (⟨rj, b, pool⟩, .next pos)
      | (rj, some r) => (⟨rj, b, pool⟩, .done r)
      | (rj, none) => (⟨rj, b, pool⟩, .done (.err (.unhandledPeek c rj.currentIndex)))
    else (⟨rj, b, pool⟩, .done (.err (.unhandledPeek c rj.currentIndex)))
  | (rj, .panic) => (⟨rj, b, pool⟩, .done .panic)
  | (rj, .diverge) => (⟨rj, b, pool⟩, .done .diverge)

theorem onValue_eq (F : Nat) (opt : Options) (c : Byte) (pos : Pos) (st : St β) :
    onValue F cb opt c pos st =
      if c = 91 then (st, .next .arrayBegin)
      else if c = 123 then (st, .next .objectBegin)
      else
        match callAction cb .atom st with
        | (st, .go) => skipStep F opt c pos st.rj st.baton st.pool
        | (st, .consumed) => (st, .next pos)
        | (st, .leave r) => (st, .done r.cast) := by
  unfold onValue
  by_cases h1 : c = 91
  · rw [if_pos h1, if_pos h1]
  · rw [if_neg h1, if_neg h1]
    by_cases h2 : c = 123
    · rw [if_pos h2, if_pos h2]
    · rw [if_neg h2, if_neg h2]
      rcases callAction cb .atom st with ⟨st1, _ | _ | r⟩
      · simp only [skipStep]
        rcases skipBasic F c st1.rj with ⟨rj, _ | e | _ | _⟩ <;> rfl
      · rfl
      · rfl

end

/-! ## Errors -/

def _root_.Verif.Scan.SRes.error {α : Type} : SRes α → Option SErr
  | .err e => some e
  | _ => none

def After.error : After → Option SErr
  | .leave r => r.error
  | _ => none

def Step.error : Step → Option SErr
  | .done r => r.error
  | _ => none

theorem cast_error {α : Type} (r : SRes Empty) : (r.cast : SRes α).error = r.error := by
  rcases r with r | _ | _ | _
  · cases r
  · rfl
  · rfl
  · rfl

theorem topPos_error {β : Type} (st : St β) (msg : String) (m : String) (i : Nat) :
    (topPos st msg).error ≠ some (.action m i) := by
  unfold topPos
  repeat (first | split | nofun)

theorem keyPushError_action (e : PoolError) (i : Nat) (m : String) (j : Nat) :
    some (keyPushError e i) ≠ some (.action m j) := by
  unfold keyPushError
  repeat (first | split | nofun)

theorem skipSse_action (F : Nat) (m : String) (i : Nat) : ∀ (tokens : List Bytes) (rj : RJ),
    ∀ r, (skipSse F tokens rj).2 = some r → r.error ≠ some (.action m i) := by
  intro tokens
  induction tokens with
  | nil => intro rj r h; cases h
  | cons t ts ih =>
    intro rj r h
    unfold skipSse at h
    revert h
    repeat (first | exact ih _ _ | split | (intro h; injection h with h; subst h; nofun))

/-! ## The simulation -/

section
variable {β γ : Type}

/-- The answers of two actions, called in the same state of the parser: the same, with related states (`Q` if the
actions report an error). -/
def SameAnswer (Rel : β → γ → Prop) (Q : String → RJ → β → γ → Prop) (x : (RJ × β) × Acted) (y : (RJ × γ) × Acted) : Prop :=
  x.1.1 = y.1.1 ∧ x.2 = y.2 ∧
    match x.2 with
    | .op (.error m) => Q m x.1.1 x.1.2 y.1.2
    | _ => Rel x.1.2 y.1.2

/-- Callbacks that answer alike. -/
structure Sim (cb : Callbacks β) (cb' : Callbacks γ) (Rel : β → γ → Prop) (Q : String → RJ → β → γ → Prop) : Prop where
  find : ∀ p c b g, Rel b g → Rel (cb.find p c b).1 (cb'.find p c g).1 ∧
    match (cb.find p c b).2, (cb'.find p c g).2 with
    | none, none => True
    | some a, some a' => ∀ s, SameAnswer Rel Q (a s (cb.find p c b).1) (a' s (cb'.find p c g).1)
    | _, _ => False
  findEnd : ∀ p c b g, Rel b g → Rel (cb.findEnd p c b).1 (cb'.findEnd p c g).1 ∧
    match (cb.findEnd p c b).2, (cb'.findEnd p c g).2 with
    | none, none => True
    | some a, some a' => (a (cb.findEnd p c b).1).2 = (a' (cb'.findEnd p c g).1).2 ∧
      (match (a (cb.findEnd p c b).1).2 with
        | some m => ∀ s, Q m s (a (cb.findEnd p c b).1).1 (a' (cb'.findEnd p c g).1).1
        | none => Rel (a (cb.findEnd p c b).1).1 (a' (cb'.findEnd p c g).1).1)
    | _, _ => False

variable {cb : Callbacks β} {cb' : Callbacks γ} {Rel : β → γ → Prop} {Q : String → RJ → β → γ → Prop}

/-- Either nothing failed and the states are related, or an action failed. -/
def Good (Rel : β → γ → Prop) (Q : String → RJ → β → γ → Prop) (st : St β) (g : γ) (o : Option SErr) : Prop :=
  (Rel st.baton g ∧ ∀ m i, o ≠ some (.action m i)) ∨
    ∃ m, o = some (.action m st.rj.currentIndex) ∧ Q m st.rj st.baton g

/-- The second run ends like the first one. -/
def Same {α : Type} (Rel : β → γ → Prop) (Q : String → RJ → β → γ → Prop) (err : α → Option SErr) (x : St β × α)
    (y : St γ × α) : Prop :=
  ∃ g, y = (⟨x.1.rj, g, x.1.pool⟩, x.2) ∧ Good Rel Q x.1 g (err x.2)

theorem Good.rel {st : St β} {g : γ} (h : Good Rel Q st g none) : Rel st.baton g := by
  rcases h with ⟨h, _⟩ | ⟨_, h, _⟩
  · exact h
  · cases h

theorem same_plain {α : Type} {err : α → Option SErr} {rj : RJ} {b : β} {g : γ} {pool : Pool} {a : α} (h : Rel b g)
    (ho : ∀ m i, err a ≠ some (.action m i)) : Same Rel Q err (⟨rj, b, pool⟩, a) (⟨rj, g, pool⟩, a) :=
  ⟨g, rfl, .inl ⟨h, ho⟩⟩

theorem callAction_same (H : Sim cb cb' Rel Q) (p : Pseudo) (rj : RJ) (b : β) (g : γ) (pool : Pool) (hr : Rel b g) :
    Same Rel Q After.error (callAction cb p ⟨rj, b, pool⟩) (callAction cb' p ⟨rj, g, pool⟩) := by
  have h := H.find p (.of pool) b g hr
  simp only [callAction]
  revert h
  rcases cb.find p (.of pool) b with ⟨b1, _ | a⟩ <;> rcases cb'.find p (.of pool) g with ⟨g1, _ | a'⟩
  · exact fun h => same_plain h.1 nofun
  · exact fun h => h.2.elim
  · exact fun h => h.2.elim
  · rintro ⟨h1, h2⟩
    have h2 := h2 rj
    simp only at h2 ⊢
    revert h2
    rcases a rj b1 with ⟨⟨s1, b2⟩, r⟩
    rcases a' rj g1 with ⟨⟨s2, g2⟩, r'⟩
    rintro ⟨e1, e2, h2⟩
    simp only at e1 e2 h2
    subst e1 e2
    rcases r with (_ | _ | m) | _ | _
    · exact same_plain h2 nofun
    · exact same_plain h2 nofun
    · exact ⟨g2, rfl, .inr ⟨m, rfl, h2⟩⟩
    · exact same_plain h2 nofun
    · exact same_plain h2 nofun

theorem endStep_same (H : Sim cb cb' Rel Q) (p : Pseudo) (c : Ctx) (rj : RJ) (b : β) (g : γ) (pl pool : Pool) (hr : Rel b g) :
    Same Rel Q id (endStep cb p c ⟨rj, b, pl⟩ pool) (endStep cb' p c ⟨rj, g, pl⟩ pool) := by
  have h := H.findEnd p c b g hr
  simp only [endStep]
  revert h
  rcases cb.findEnd p c b with ⟨b1, _ | a⟩ <;> rcases cb'.findEnd p c g with ⟨g1, _ | a'⟩
  · exact fun h => same_plain h.1 nofun
  · exact fun h => h.2.elim
  · exact fun h => h.2.elim
  · rintro ⟨h1, h2⟩
    simp only [runEnd] at h2 ⊢
    revert h2
    rcases a b1 with ⟨b2, r⟩
    rcases a' g1 with ⟨g2, r'⟩
    rintro ⟨e, h2⟩
    simp only at e h2
    subst e
    rcases r with _ | m
    · exact same_plain h2 nofun
    · exact ⟨g2, rfl, .inr ⟨m, rfl, h2 rj⟩⟩

theorem topPos_pool {rj rj' : RJ} {b : β} {g : γ} {pool : Pool} (msg : String) (h : rj = rj') :
    topPos ⟨rj, b, pool⟩ msg = topPos ⟨rj', g, pool⟩ msg := by subst h; rfl

theorem handleKey_same (H : Sim cb cb' Rel Q) (F : Nat) (begin : Bool) (rj : RJ) (b : β) (g : γ) (pool : Pool) (hr : Rel b g) :
    Same Rel Q SRes.error (handleKey F cb begin ⟨rj, b, pool⟩) (handleKey F cb' begin ⟨rj, g, pool⟩) := by
  rw [handleKey_eq, handleKey_eq]
  simp only
  rcases (if begin then rj.nextObjectBytes F else rj.nextKeyBytes F) with ⟨rj, r⟩
  match r with
  | .ok none =>
    simp only
    obtain ⟨g1, e, hg⟩ := endStep_same H .object (.of pool) rj b g pool pool hr
    rw [e]
    revert hg
    rcases endStep cb .object (.of pool) ⟨rj, b, pool⟩ pool with ⟨⟨rj1, b1, pl1⟩, _ | e⟩
    · exact fun hg => ⟨g1, rfl, .inl ⟨hg.rel, topPos_error _ _⟩⟩
    · exact fun hg => ⟨g1, rfl, hg⟩
  | .ok (some key) =>
    simp only
    rcases pool.pushAssoc posLayout [Pos.objectMiddle.byte] key with ⟨p, _ | e | _⟩
    · simp only
      obtain ⟨g1, e, hg⟩ := callAction_same H .none rj b g p hr
      rw [e]
      revert hg
      rcases callAction cb .none ⟨rj, b, p⟩ with ⟨⟨rj1, b1, pl1⟩, _ | _ | r⟩
      · exact fun hg => same_plain hg.rel nofun
      · exact fun hg => same_plain hg.rel nofun
      · intro hg
        refine ⟨g1, rfl, ?_⟩
        simp only
        rw [cast_error]
        exact hg
    · exact same_plain hr (keyPushError_action _ _)
    · exact same_plain hr nofun
  | .err e => exact same_plain hr nofun
  | .panic => exact same_plain hr nofun
  | .diverge => exact same_plain hr nofun

theorem handleObject_same (H : Sim cb cb' Rel Q) (F : Nat) (pos : Pos) (rj : RJ) (b : β) (g : γ) (pool : Pool) (hr : Rel b g) :
    Same Rel Q SRes.error (handleObject F cb pos ⟨rj, b, pool⟩) (handleObject F cb' pos ⟨rj, g, pool⟩) := by
  rw [handleObject_eq, handleObject_eq]
  by_cases hp : pos = .objectBegin
  · rw [if_pos hp, if_pos hp]
    obtain ⟨g1, e, hg⟩ := callAction_same H .object rj b g pool hr
    rw [e]
    revert hg
    rcases callAction cb .object ⟨rj, b, pool⟩ with ⟨⟨rj1, b1, pl1⟩, _ | _ | r⟩
    · exact fun hg => handleKey_same H F true rj1 b1 g1 pl1 hg.rel
    · exact fun hg => ⟨g1, rfl, .inl ⟨hg.rel, topPos_error _ _⟩⟩
    · intro hg
      refine ⟨g1, rfl, ?_⟩
      simp only
      rw [cast_error]
      exact hg
  · rw [if_neg hp, if_neg hp]
    have he := fun p => endStep_same H .none (.of pool) rj b g pool p hr
    simp only
    rcases pool.popAssoc posLayout with ⟨p, _ | e | _⟩
    · obtain ⟨g1, e, hg⟩ := he p
      simp only
      rw [e]
      revert hg
      rcases endStep cb .none (.of pool) ⟨rj, b, pool⟩ p with ⟨⟨rj1, b1, pl1⟩, _ | e⟩
      · exact fun hg => handleKey_same H F false rj1 b1 g1 pl1 hg.rel
      · exact fun hg => ⟨g1, rfl, hg⟩
    · obtain ⟨g1, e, hg⟩ := he p
      simp only
      rw [e]
      revert hg
      rcases endStep cb .none (.of pool) ⟨rj, b, pool⟩ p with ⟨⟨rj1, b1, pl1⟩, _ | e⟩
      · exact fun hg => handleKey_same H F false rj1 b1 g1 pl1 hg.rel
      · exact fun hg => ⟨g1, rfl, hg⟩
    · exact same_plain (H.findEnd .none (.of pool) b g hr).1 nofun

theorem handleItem_same (H : Sim cb cb' Rel Q) (F : Nat) (begin : Bool) (rj : RJ) (b : β) (g : γ) (pool : Pool) (hr : Rel b g) :
    Same Rel Q SRes.error (handleItem F cb begin ⟨rj, b, pool⟩) (handleItem F cb' begin ⟨rj, g, pool⟩) := by
  rw [handleItem_eq, handleItem_eq]
  simp only
  rcases (if begin then rj.knownArray F else rj.arrayStep F) with ⟨rj, r⟩
  match r with
  | .ok none =>
    simp only
    rcases pool.popAssoc posLayout with ⟨p, (_ | it) | e | _⟩
    · exact same_plain hr nofun
    · simp only
      obtain ⟨g1, e, hg⟩ := endStep_same H .array (.of p) rj b g p p hr
      rw [e]
      revert hg
      rcases endStep cb .array (.of p) ⟨rj, b, p⟩ p with ⟨⟨rj1, b1, pl1⟩, _ | e⟩
      · intro hg
        simp only
        rw [topPos_pool (b := b1) (g := g1) _ rfl]
        have ht := topPos_error (⟨rj1, g1, pl1⟩ : St γ) "Context stack is empty when ending array"
        revert ht
        rcases topPos ⟨rj1, g1, pl1⟩ "Context stack is empty when ending array" with _ | _ | _ | _
        · exact fun _ => same_plain hg.rel nofun
        · exact fun ht => same_plain hg.rel ht
        · exact fun _ => same_plain hg.rel nofun
        · exact fun _ => same_plain hg.rel nofun
      · exact fun hg => ⟨g1, rfl, hg⟩
    · exact same_plain hr nofun
    · exact same_plain hr nofun
  | .ok (some key) => exact same_plain hr nofun
  | .err e => exact same_plain hr nofun
  | .panic => exact same_plain hr nofun
  | .diverge => exact same_plain hr nofun

theorem handleArray_same (H : Sim cb cb' Rel Q) (F : Nat) (pos : Pos) (rj : RJ) (b : β) (g : γ) (pool : Pool) (hr : Rel b g) :
    Same Rel Q SRes.error (handleArray F cb pos ⟨rj, b, pool⟩) (handleArray F cb' pos ⟨rj, g, pool⟩) := by
  unfold handleArray
  by_cases hp : pos = .arrayBegin
  · rw [if_pos hp, if_pos hp]
    obtain ⟨g1, e, hg⟩ := callAction_same H .array rj b g pool hr
    rw [e]
    revert hg
    rcases callAction cb .array ⟨rj, b, pool⟩ with ⟨⟨rj1, b1, pl1⟩, _ | _ | r⟩
    · intro hg
      simp only
      rcases pl1.pushAssoc posLayout [Pos.arrayMiddle.byte] nameArray with ⟨p, _ | e | _⟩
      · exact handleItem_same H F true rj1 b1 g1 p hg.rel
      · exact same_plain hg.rel nofun
      · exact same_plain hg.rel nofun
    · intro hg
      simp only
      rw [topPos_pool (b := b1) (g := g1) _ rfl]
      have ht := topPos_error (⟨rj1, g1, pl1⟩ : St γ) "Context stack is empty when handling ValueIsConsumed in array"
      revert ht
      rcases topPos ⟨rj1, g1, pl1⟩ "Context stack is empty when handling ValueIsConsumed in array" with _ | _ | _ | _
      · exact fun _ => same_plain hg.rel nofun
      · exact fun ht => same_plain hg.rel ht
      · exact fun _ => same_plain hg.rel nofun
      · exact fun _ => same_plain hg.rel nofun
    · intro hg
      refine ⟨g1, rfl, ?_⟩
      simp only
      rw [cast_error]
      exact hg
  · rw [if_neg hp, if_neg hp]
    exact handleItem_same H F false rj b g pool hr

theorem skipStep_same (F : Nat) (opt : Options) (c : Byte) (pos : Pos) (rj : RJ) (b : β) (g : γ) (pool : Pool) (hr : Rel b g) :
    Same Rel Q Step.error (skipStep F opt c pos rj b pool) (skipStep F opt c pos rj g pool) := by
  unfold skipStep
  rcases skipBasic F c rj with ⟨rj, _ | e | _ | _⟩
  · exact same_plain hr nofun
  · simp only
    by_cases h3 : pos = .top ∨ ((pos = .arrayBegin ∨ pos = .arrayMiddle) ∧ pool.len = 2)
    · rw [if_pos h3, if_pos h3]
      have h := fun m i => skipSse_action F m i opt.sseTokens rj
      revert h
      rcases skipSse F opt.sseTokens rj with ⟨rj2, _ | (_ | _ | _ | _)⟩
      · exact fun _ => same_plain hr nofun
      · exact fun _ => same_plain hr nofun
      · exact fun h => same_plain hr (fun m i => h m i _ rfl)
      · exact fun _ => same_plain hr nofun
      · exact fun _ => same_plain hr nofun
    · rw [if_neg h3, if_neg h3]
      exact same_plain hr nofun
  · exact same_plain hr nofun
  · exact same_plain hr nofun

theorem onValue_same (H : Sim cb cb' Rel Q) (F : Nat) (opt : Options) (c : Byte) (pos : Pos) (rj : RJ) (b : β) (g : γ)
    (pool : Pool) (hr : Rel b g) :
    Same Rel Q Step.error (onValue F cb opt c pos ⟨rj, b, pool⟩) (onValue F cb' opt c pos ⟨rj, g, pool⟩) := by
  rw [onValue_eq, onValue_eq]
  by_cases h1 : c = 91
  · rw [if_pos h1, if_pos h1]
    exact same_plain hr nofun
  · rw [if_neg h1, if_neg h1]
    by_cases h2 : c = 123
    · rw [if_pos h2, if_pos h2]
      exact same_plain hr nofun
    · rw [if_neg h2, if_neg h2]
      obtain ⟨g1, e, hg⟩ := callAction_same H .atom rj b g pool hr
      rw [e]
      revert hg
      rcases callAction cb .atom ⟨rj, b, pool⟩ with ⟨⟨rj1, b1, pl1⟩, _ | _ | r⟩
      · exact fun hg => skipStep_same F opt c pos rj1 b1 g1 pl1 hg.rel
      · exact fun hg => same_plain hg.rel nofun
      · intro hg
        refine ⟨g1, rfl, ?_⟩
        simp only [Step.error]
        rw [cast_error]
        exact hg

theorem turn_same (H : Sim cb cb' Rel Q) (F : Nat) (opt : Options) (pos : Pos) (rj : RJ) (b : β) (g : γ) (pool : Pool)
    (hr : Rel b g) : Same Rel Q Step.error (turn F cb opt pos ⟨rj, b, pool⟩) (turn F cb' opt pos ⟨rj, g, pool⟩) := by
  unfold turn
  by_cases h1 : pos = .objectBegin ∨ pos = .objectMiddle
  · rw [if_pos h1, if_pos h1]
    obtain ⟨g1, e, hg⟩ := handleObject_same H F pos rj b g pool hr
    rw [e]
    revert hg
    rcases handleObject F cb pos ⟨rj, b, pool⟩ with ⟨⟨rj1, b1, pl1⟩, _ | _ | _ | _⟩ <;> exact fun hg => ⟨g1, rfl, hg⟩
  · rw [if_neg h1, if_neg h1]
    by_cases h2 : pos = .arrayBegin ∨ pos = .arrayMiddle
    · rw [if_pos h2, if_pos h2]
      obtain ⟨g1, e, hg⟩ := handleArray_same H F pos rj b g pool hr
      rw [e]
      revert hg
      rcases handleArray F cb pos ⟨rj, b, pool⟩ with ⟨⟨rj1, b1, pl1⟩, ⟨_ | c, p⟩ | _ | _ | _⟩
      · exact fun hg => ⟨g1, rfl, hg⟩
      · intro hg
        simp only
        by_cases h3 : p = .arrayMiddle
        · rw [if_pos h3, if_pos h3]
          exact onValue_same H F opt c .arrayMiddle rj1 b1 g1 pl1 hg.rel
        · rw [if_neg h3, if_neg h3]
          exact same_plain hg.rel nofun
      · exact fun hg => ⟨g1, rfl, hg⟩
      · exact fun hg => ⟨g1, rfl, hg⟩
      · exact fun hg => ⟨g1, rfl, hg⟩
    · rw [if_neg h2, if_neg h2]
      simp only
      rcases rj.peek F with ⟨rj, c | e | _ | _⟩
      · exact onValue_same H F opt c _ rj b g pool hr
      · simp only
        by_cases h3 : e.type = .json .eofWhileParsingValue
        · rw [if_pos h3, if_pos h3]
          by_cases h4 : pos ≠ .top
          · rw [if_pos h4, if_pos h4]
            exact same_plain hr nofun
          · rw [if_neg h4, if_neg h4]
            rcases rj.finish F with ⟨rj2, _ | _ | _ | _⟩ <;> exact same_plain hr nofun
        · rw [if_neg h3, if_neg h3]
          exact same_plain hr nofun
      · exact same_plain hr nofun
      · exact same_plain hr nofun

theorem mainLoop_same (H : Sim cb cb' Rel Q) (F : Nat) (opt : Options) : ∀ (n : Nat) (pr : Bool) (pos : Pos) (rj : RJ)
    (b : β) (g : γ) (pool : Pool), Rel b g →
      Same Rel Q SRes.error (mainLoop F cb opt n pr pos ⟨rj, b, pool⟩) (mainLoop F cb' opt n pr pos ⟨rj, g, pool⟩) := by
  intro n
  induction n with
  | zero => intro pr pos rj b g pool hr; exact same_plain hr nofun
  | succ n ih =>
    intro pr pos rj b g pool hr
    unfold mainLoop
    by_cases h1 : pr ∧ opt.stopEarly ∧ pos = .top
    · rw [if_pos h1, if_pos h1]
      exact same_plain hr nofun
    · rw [if_neg h1, if_neg h1]
      obtain ⟨g1, e, hg⟩ := turn_same H F opt pos rj b g pool hr
      rw [e]
      revert hg
      rcases turn F cb opt pos ⟨rj, b, pool⟩ with ⟨⟨rj1, b1, pl1⟩, p | r⟩
      · exact fun hg => ih true p rj1 b1 g1 pl1 hg.rel
      · exact fun hg => ⟨g1, rfl, hg⟩

/-- Whatever the input: two scans with callbacks that answer alike end alike. -/
theorem scan_same (H : Sim cb cb' Rel Q) (turns F : Nat) (opt : Options) (rj : RJ) (b : β) (g : γ) (pool : Pool) (hr : Rel b g) :
    Same Rel Q SRes.error (scan turns F cb opt ⟨rj, b, pool⟩) (scan turns F cb' opt ⟨rj, g, pool⟩) := by
  unfold scan
  simp only
  rcases pool.pushAssoc posLayout [Pos.top.byte] nameTop with ⟨p, _ | e | _⟩
  · exact mainLoop_same H F opt turns false .top rj b g p hr
  · exact same_plain hr nofun
  · exact same_plain hr nofun

/-- The same for one set of callbacks: what holds of the client's state as long as no action fails (`P`), and what
holds of it when one has failed (`Q`). -/
structure Keeps (cb : Callbacks β) (P : β → Prop) (Q : String → RJ → β → Prop) : Prop where
  find : ∀ p c b, P b → P (cb.find p c b).1 ∧
    ∀ a, (cb.find p c b).2 = some a → ∀ s,
      match a s (cb.find p c b).1 with
      | ((s', b'), .op (.error m)) => Q m s' b'
      | ((_, b'), _) => P b'
  findEnd : ∀ p c b, P b → P (cb.findEnd p c b).1 ∧
    ∀ a, (cb.findEnd p c b).2 = some a →
      match a (cb.findEnd p c b).1 with
      | (b', some m) => ∀ s, Q m s b'
      | (b', none) => P b'

theorem scan_keeps {P : β → Prop} {Q : String → RJ → β → Prop} (H : Keeps cb P Q) (turns F : Nat) (opt : Options)
    (st : St β) (hp : P st.baton) :
    P (scan turns F cb opt st).1.baton ∧ (∀ m i, (scan turns F cb opt st).2 ≠ .err (.action m i)) ∨
    ∃ m, (scan turns F cb opt st).2 = .err (.action m (scan turns F cb opt st).1.rj.currentIndex) ∧
      Q m (scan turns F cb opt st).1.rj (scan turns F cb opt st).1.baton := by
  have hs : Sim cb cb (fun b g => b = g ∧ P b) (fun m s b g => b = g ∧ Q m s b) := by
    constructor
    · rintro p c b g ⟨rfl, h⟩
      obtain ⟨h1, h2⟩ := H.find p c b h
      refine ⟨⟨rfl, h1⟩, ?_⟩
      rcases he : cb.find p c b with ⟨b1, _ | a⟩
      · trivial
      · intro s
        rw [he] at h2
        have h2 := h2 a rfl s
        simp only at h2 ⊢
        refine ⟨rfl, rfl, ?_⟩
        revert h2
        rcases a s b1 with ⟨⟨s1, b2⟩, (_ | _ | m) | _ | _⟩ <;> exact fun h => ⟨rfl, h⟩
    · rintro p c b g ⟨rfl, h⟩
      obtain ⟨h1, h2⟩ := H.findEnd p c b h
      refine ⟨⟨rfl, h1⟩, ?_⟩
      rcases he : cb.findEnd p c b with ⟨b1, _ | a⟩
      · trivial
      · rw [he] at h2
        have h2 := h2 a rfl
        simp only at h2 ⊢
        refine ⟨trivial, ?_⟩
        revert h2
        rcases a b1 with ⟨b2, _ | m⟩
        · exact fun h => ⟨trivial, h⟩
        · exact fun h s => ⟨trivial, h s⟩
  obtain ⟨g, e, h⟩ := scan_same hs turns F opt st.rj st.baton st.baton st.pool ⟨rfl, hp⟩
  revert h
  rcases scan turns F cb opt st with ⟨st1, r⟩
  rintro (⟨h1, h2⟩ | ⟨m, h1, h2⟩)
  · refine .inl ⟨h1.2, ?_⟩
    rintro m i hr
    exact h2 m i (by rw [show r = _ from hr]; rfl)
  · refine .inr ⟨m, ?_, h2.2⟩
    revert h1
    rcases r with _ | e | _ | _
    · exact nofun
    · intro h
      injection h with h
      simp only [h]
    · exact nofun
    · exact nofun

end

end Verif.Scan
