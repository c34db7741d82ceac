import Verif.Scan.Sim

/-!
# Two sets of callbacks that answer alike until one of the first fails

As `Sim`, but an action of the first set may fail where the action of the second set does not. Then the first scan is over,
and the second one goes on.
-/

namespace Verif.Scan

open Verif.U8Pool (Pool PRes PoolError)
open Verif.RJiter (RJ Err Res JsonErr Writer)

section
variable {β γ : Type}

/-- A property of the client's state that no callback breaks. -/
abbrev Stays (cb : Callbacks γ) (P : γ → Prop) : Prop := Keeps cb P fun _ _ => P

theorem stays_sim {cb : Callbacks γ} {P : γ → Prop} (H : Stays cb P) :
    Sim cb cb (fun b g => b = g ∧ P b) (fun _ _ b g => b = g ∧ P b) := by
  constructor
  · rintro p c b g ⟨rfl, h⟩
    obtain ⟨h1, h2⟩ := H.find p c b h
    refine ⟨⟨rfl, h1⟩, ?_⟩
    rcases he : cb.find p c b with ⟨b1, _ | a⟩
    · trivial
    · intro s
      rw [he] at h2
      have h2 := h2 a rfl s
      simp only at h2 ⊢
      refine ⟨rfl, rfl, ?_⟩
      revert h2
      rcases a s b1 with ⟨⟨s1, b2⟩, (_ | _ | m) | _ | _⟩ <;> exact fun h => ⟨rfl, h⟩
  · rintro p c b g ⟨rfl, h⟩
    obtain ⟨h1, h2⟩ := H.findEnd p c b h
    refine ⟨⟨rfl, h1⟩, ?_⟩
    rcases he : cb.findEnd p c b with ⟨b1, _ | a⟩
    · trivial
    · rw [he] at h2
      have h2 := h2 a rfl
      simp only at h2 ⊢
      refine ⟨trivial, ?_⟩
      revert h2
      rcases a b1 with ⟨b2, _ | m⟩
      · exact fun h => ⟨trivial, h⟩
      · exact fun h s => ⟨trivial, h s⟩

theorem Same.stays {α : Type} {P : γ → Prop} {err : α → Option SErr} {x y : St γ × α}
    (h : Same (fun b g => b = g ∧ P b) (fun _ _ b g => b = g ∧ P b) err x y) : P x.1.baton := by
  obtain ⟨g, _, h | ⟨_, _, h⟩⟩ := h
  · exact h.1.2
  · exact h.2

/-- The answers of two actions, called in the same state of the parser: the same, with related states; or the first one has
failed. -/
def Follows (Rel Q : β → γ → Prop) (x : (RJ × β) × Acted) (y : (RJ × γ) × Acted) : Prop :=
  (x.1.1 = y.1.1 ∧ x.2 = y.2 ∧ Rel x.1.2 y.1.2) ∨ ((∃ m, x.2 = .op (.error m)) ∧ Q x.1.2 y.1.2)

/-- Callbacks that answer alike until one of the first fails. What holds then (`Q`) is not broken by the second ones. -/
structure Until (cb : Callbacks β) (cb' : Callbacks γ) (Rel Q : β → γ → Prop) : Prop where
  find : ∀ p c b g, Rel b g → Rel (cb.find p c b).1 (cb'.find p c g).1 ∧
    match (cb.find p c b).2, (cb'.find p c g).2 with
    | none, none => True
    | some a, some a' => ∀ s, Follows Rel Q (a s (cb.find p c b).1) (a' s (cb'.find p c g).1)
    | _, _ => False
  findEnd : ∀ p c b g, Rel b g → Rel (cb.findEnd p c b).1 (cb'.findEnd p c g).1 ∧
    match (cb.findEnd p c b).2, (cb'.findEnd p c g).2 with
    | none, none => True
    | some a, some a' =>
      ((a (cb.findEnd p c b).1).2 = (a' (cb'.findEnd p c g).1).2 ∧ Rel (a (cb.findEnd p c b).1).1 (a' (cb'.findEnd p c g).1).1) ∨
      ((∃ m, (a (cb.findEnd p c b).1).2 = some m) ∧ Q (a (cb.findEnd p c b).1).1 (a' (cb'.findEnd p c g).1).1)
    | _, _ => False
  stays : ∀ b, Stays cb' (Q b)

variable {cb : Callbacks β} {cb' : Callbacks γ} {Rel Q : β → γ → Prop}

/-- The second run ends like the first one, or an action failed in the first one. -/
def Led {α : Type} (Rel Q : β → γ → Prop) (err : α → Option SErr) (x : St β × α) (y : St γ × α) : Prop :=
  (∃ g, y = (⟨x.1.rj, g, x.1.pool⟩, x.2) ∧ Rel x.1.baton g) ∨ ((∃ m i, err x.2 = some (.action m i)) ∧ Q x.1.baton y.1.baton)

theorem led_plain {α : Type} {err : α → Option SErr} {rj : RJ} {b : β} {g : γ} {pool : Pool} {a : α} (h : Rel b g) :
    Led Rel Q err (⟨rj, b, pool⟩, a) (⟨rj, g, pool⟩, a) := .inl ⟨g, rfl, h⟩

theorem callAction_led (H : Until cb cb' Rel Q) (p : Pseudo) (rj : RJ) (b : β) (g : γ) (pool : Pool) (hr : Rel b g) :
    Led Rel Q After.error (callAction cb p ⟨rj, b, pool⟩) (callAction cb' p ⟨rj, g, pool⟩) := by
  have h := H.find p (.of pool) b g hr
  simp only [callAction]
  revert h
  rcases cb.find p (.of pool) b with ⟨b1, _ | a⟩ <;> rcases cb'.find p (.of pool) g with ⟨g1, _ | a'⟩
  · exact fun h => led_plain h.1
  · exact fun h => h.2.elim
  · exact fun h => h.2.elim
  · rintro ⟨h1, h2⟩
    have h2 := h2 rj
    simp only at h2 ⊢
    revert h2
    rcases a rj b1 with ⟨⟨s1, b2⟩, r⟩
    rcases a' rj g1 with ⟨⟨s2, g2⟩, r'⟩
    rintro (⟨e1, e2, h2⟩ | ⟨⟨m, e⟩, h2⟩)
    · simp only at e1 e2 h2
      subst e1 e2
      rcases r with (_ | _ | m) | _ | _ <;> exact led_plain h2
    · simp only at e h2
      subst e
      refine .inr ⟨⟨m, _, rfl⟩, ?_⟩
      rcases r' with (_ | _ | m) | _ | _ <;> exact h2

theorem endStep_led (H : Until cb cb' Rel Q) (p : Pseudo) (c : Ctx) (rj : RJ) (b : β) (g : γ) (pl pool : Pool) (hr : Rel b g) :
    Led Rel Q id (endStep cb p c ⟨rj, b, pl⟩ pool) (endStep cb' p c ⟨rj, g, pl⟩ pool) := by
  have h := H.findEnd p c b g hr
  simp only [endStep]
  revert h
  rcases cb.findEnd p c b with ⟨b1, _ | a⟩ <;> rcases cb'.findEnd p c g with ⟨g1, _ | a'⟩
  · exact fun h => led_plain h.1
  · exact fun h => h.2.elim
  · exact fun h => h.2.elim
  · rintro ⟨h1, h2⟩
    simp only [runEnd] at h2 ⊢
    revert h2
    rcases a b1 with ⟨b2, r⟩
    rcases a' g1 with ⟨g2, r'⟩
    rintro (⟨e, h2⟩ | ⟨⟨m, e⟩, h2⟩)
    · simp only at e h2
      subst e
      rcases r with _ | m <;> exact led_plain h2
    · simp only at e h2
      subst e
      refine .inr ⟨⟨m, _, rfl⟩, ?_⟩
      rcases r' with _ | m <;> exact h2

/-! ## What the second scan does when the first is over -/

section
variable {P : γ → Prop} (H : Stays cb' P)
include H

theorem handleKey_stays (F : Nat) (begin : Bool) (st : St γ) (h : P st.baton) : P (handleKey F cb' begin st).1.baton :=
  (handleKey_same (stays_sim H) F begin st.rj st.baton st.baton st.pool ⟨rfl, h⟩).stays

theorem handleItem_stays (F : Nat) (begin : Bool) (st : St γ) (h : P st.baton) : P (handleItem F cb' begin st).1.baton :=
  (handleItem_same (stays_sim H) F begin st.rj st.baton st.baton st.pool ⟨rfl, h⟩).stays

theorem onValue_stays (F : Nat) (opt : Options) (c : Byte) (pos : Pos) (st : St γ) (h : P st.baton) :
    P (onValue F cb' opt c pos st).1.baton :=
  (onValue_same (stays_sim H) F opt c pos st.rj st.baton st.baton st.pool ⟨rfl, h⟩).stays

theorem mainLoop_stays (F : Nat) (opt : Options) (n : Nat) (pr : Bool) (pos : Pos) (st : St γ) (h : P st.baton) :
    P (mainLoop F cb' opt n pr pos st).1.baton :=
  (mainLoop_same (stays_sim H) F opt n pr pos st.rj st.baton st.baton st.pool ⟨rfl, h⟩).stays

end

/-! ## The two scans -/

theorem skipStep_baton (F : Nat) (opt : Options) (c : Byte) (pos : Pos) (rj : RJ) (b : γ) (pool : Pool) :
    (skipStep F opt c pos rj b pool).1.baton = b := by
  unfold skipStep
  repeat (first | rfl | split)

theorem handleKey_led (H : Until cb cb' Rel Q) (F : Nat) (begin : Bool) (rj : RJ) (b : β) (g : γ) (pool : Pool) (hr : Rel b g) :
    Led Rel Q SRes.error (handleKey F cb begin ⟨rj, b, pool⟩) (handleKey F cb' begin ⟨rj, g, pool⟩) := by
  rw [handleKey_eq, handleKey_eq]
  simp only
  rcases (if begin then rj.nextObjectBytes F else rj.nextKeyBytes F) with ⟨rj, r⟩
  match r with
  | .ok none =>
    simp only
    rcases endStep_led H .object (.of pool) rj b g pool pool hr with ⟨g1, e, hg⟩ | ⟨⟨m, i, e⟩, hg⟩
    · rw [e]
      revert hg
      rcases endStep cb .object (.of pool) ⟨rj, b, pool⟩ pool with ⟨⟨rj1, b1, pl1⟩, _ | e⟩
      · exact fun hg => .inl ⟨g1, rfl, hg⟩
      · exact fun hg => .inl ⟨g1, rfl, hg⟩
    · revert e hg
      rcases endStep cb .object (.of pool) ⟨rj, b, pool⟩ pool with ⟨⟨rj1, b1, pl1⟩, _ | e⟩
      · exact nofun
      · intro hg e
        refine .inr ⟨⟨m, i, e⟩, ?_⟩
        revert hg
        rcases endStep cb' .object (.of pool) ⟨rj, g, pool⟩ pool with ⟨st, _ | e⟩ <;> exact id
  | .ok (some key) =>
    simp only
    rcases pool.pushAssoc posLayout [Pos.objectMiddle.byte] key with ⟨p, _ | e | _⟩
    · simp only
      rcases callAction_led H .none rj b g p hr with ⟨g1, e, hg⟩ | ⟨⟨m, i, e⟩, hg⟩
      · rw [e]
        revert hg
        rcases callAction cb .none ⟨rj, b, p⟩ with ⟨⟨rj1, b1, pl1⟩, _ | _ | r⟩ <;> exact fun hg => .inl ⟨g1, rfl, hg⟩
      · revert e hg
        rcases callAction cb .none ⟨rj, b, p⟩ with ⟨⟨rj1, b1, pl1⟩, _ | _ | r⟩
        · exact nofun
        · exact nofun
        · intro hg e
          refine .inr ⟨⟨m, i, ?_⟩, ?_⟩
          · simp only
            rw [cast_error]
            exact e
          · revert hg
            rcases callAction cb' .none ⟨rj, g, p⟩ with ⟨st, _ | _ | r⟩ <;> exact id
    · exact led_plain hr
    · exact led_plain hr
  | .err e => exact led_plain hr
  | .panic => exact led_plain hr
  | .diverge => exact led_plain hr

theorem handleObject_led (H : Until cb cb' Rel Q) (F : Nat) (pos : Pos) (rj : RJ) (b : β) (g : γ) (pool : Pool) (hr : Rel b g) :
    Led Rel Q SRes.error (handleObject F cb pos ⟨rj, b, pool⟩) (handleObject F cb' pos ⟨rj, g, pool⟩) := by
  rw [handleObject_eq, handleObject_eq]
  by_cases hp : pos = .objectBegin
  · rw [if_pos hp, if_pos hp]
    rcases callAction_led H .object rj b g pool hr with ⟨g1, e, hg⟩ | ⟨⟨m, i, e⟩, hg⟩
    · rw [e]
      revert hg
      rcases callAction cb .object ⟨rj, b, pool⟩ with ⟨⟨rj1, b1, pl1⟩, _ | _ | r⟩
      · exact fun hg => handleKey_led H F true rj1 b1 g1 pl1 hg
      · exact fun hg => .inl ⟨g1, rfl, hg⟩
      · exact fun hg => .inl ⟨g1, rfl, hg⟩
    · revert e hg
      rcases callAction cb .object ⟨rj, b, pool⟩ with ⟨⟨rj1, b1, pl1⟩, _ | _ | r⟩
      · exact nofun
      · exact nofun
      · intro hg e
        refine .inr ⟨⟨m, i, ?_⟩, ?_⟩
        · simp only
          rw [cast_error]
          exact e
        · revert hg
          rcases callAction cb' .object ⟨rj, g, pool⟩ with ⟨st, _ | _ | r⟩
          · exact handleKey_stays (H.stays b1) F true st
          · exact id
          · exact id
  · rw [if_neg hp, if_neg hp]
    have he := fun p => endStep_led H .none (.of pool) rj b g pool p hr
    have step : ∀ p, Led Rel Q SRes.error
        (match endStep cb .none (.of pool) ⟨rj, b, pool⟩ p with
          | (st, some e) => (st, .err e)
          | (st, none) => handleKey F cb false st)
        (match endStep cb' .none (.of pool) ⟨rj, g, pool⟩ p with
          | (st, some e) => (st, .err e)
          | (st, none) => handleKey F cb' false st) := by
      intro p
      rcases he p with ⟨g1, e, hg⟩ | ⟨⟨m, i, e⟩, hg⟩
      · rw [e]
        revert hg
        rcases endStep cb .none (.of pool) ⟨rj, b, pool⟩ p with ⟨⟨rj1, b1, pl1⟩, _ | e⟩
        · exact fun hg => handleKey_led H F false rj1 b1 g1 pl1 hg
        · exact fun hg => .inl ⟨g1, rfl, hg⟩
      · revert e hg
        rcases endStep cb .none (.of pool) ⟨rj, b, pool⟩ p with ⟨⟨rj1, b1, pl1⟩, _ | e⟩
        · exact nofun
        · intro hg e
          refine .inr ⟨⟨m, i, e⟩, ?_⟩
          revert hg
          rcases endStep cb' .none (.of pool) ⟨rj, g, pool⟩ p with ⟨st, _ | e⟩
          · exact handleKey_stays (H.stays b1) F false st
          · exact id
    simp only
    rcases pool.popAssoc posLayout with ⟨p, _ | e | _⟩
    · exact step p
    · exact step p
    · exact led_plain (H.findEnd .none (.of pool) b g hr).1

theorem handleItem_led (H : Until cb cb' Rel Q) (F : Nat) (begin : Bool) (rj : RJ) (b : β) (g : γ) (pool : Pool) (hr : Rel b g) :
    Led Rel Q SRes.error (handleItem F cb begin ⟨rj, b, pool⟩) (handleItem F cb' begin ⟨rj, g, pool⟩) := by
  rw [handleItem_eq, handleItem_eq]
  simp only
  rcases (if begin then rj.knownArray F else rj.arrayStep F) with ⟨rj, r⟩
  match r with
  | .ok none =>
    simp only
    rcases pool.popAssoc posLayout with ⟨p, (_ | it) | e | _⟩
    · exact led_plain hr
    · simp only
      rcases endStep_led H .array (.of p) rj b g p p hr with ⟨g1, e, hg⟩ | ⟨⟨m, i, e⟩, hg⟩
      · rw [e]
        revert hg
        rcases endStep cb .array (.of p) ⟨rj, b, p⟩ p with ⟨⟨rj1, b1, pl1⟩, _ | e⟩
        · intro hg
          simp only
          rw [topPos_pool (b := b1) (g := g1) _ rfl]
          rcases topPos ⟨rj1, g1, pl1⟩ "Context stack is empty when ending array" with _ | _ | _ | _ <;> exact led_plain hg
        · exact fun hg => .inl ⟨g1, rfl, hg⟩
      · revert e hg
        rcases endStep cb .array (.of p) ⟨rj, b, p⟩ p with ⟨⟨rj1, b1, pl1⟩, _ | e⟩
        · exact nofun
        · intro hg e
          refine .inr ⟨⟨m, i, e⟩, ?_⟩
          revert hg
          rcases endStep cb' .array (.of p) ⟨rj, g, p⟩ p with ⟨st, _ | e⟩
          · intro hg
            simp only
            rcases topPos st "Context stack is empty when ending array" with _ | _ | _ | _ <;> exact hg
          · exact id
    · exact led_plain hr
    · exact led_plain hr
  | .ok (some key) => exact led_plain hr
  | .err e => exact led_plain hr
  | .panic => exact led_plain hr
  | .diverge => exact led_plain hr

theorem handleArray_led (H : Until cb cb' Rel Q) (F : Nat) (pos : Pos) (rj : RJ) (b : β) (g : γ) (pool : Pool) (hr : Rel b g) :
    Led Rel Q SRes.error (handleArray F cb pos ⟨rj, b, pool⟩) (handleArray F cb' pos ⟨rj, g, pool⟩) := by
  unfold handleArray
  by_cases hp : pos = .arrayBegin
  · rw [if_pos hp, if_pos hp]
    rcases callAction_led H .array rj b g pool hr with ⟨g1, e, hg⟩ | ⟨⟨m, i, e⟩, hg⟩
    · rw [e]
      revert hg
      rcases callAction cb .array ⟨rj, b, pool⟩ with ⟨⟨rj1, b1, pl1⟩, _ | _ | r⟩
      · intro hg
        simp only
        rcases pl1.pushAssoc posLayout [Pos.arrayMiddle.byte] nameArray with ⟨p, _ | e | _⟩
        · exact handleItem_led H F true rj1 b1 g1 p hg
        · exact led_plain hg
        · exact led_plain hg
      · intro hg
        simp only
        rw [topPos_pool (b := b1) (g := g1) _ rfl]
        rcases topPos ⟨rj1, g1, pl1⟩ "Context stack is empty when handling ValueIsConsumed in array" with _ | _ | _ | _ <;> exact led_plain hg
      · exact fun hg => .inl ⟨g1, rfl, hg⟩
    · revert e hg
      rcases callAction cb .array ⟨rj, b, pool⟩ with ⟨⟨rj1, b1, pl1⟩, _ | _ | r⟩
      · exact nofun
      · exact nofun
      · intro hg e
        refine .inr ⟨⟨m, i, ?_⟩, ?_⟩
        · simp only
          rw [cast_error]
          exact e
        · revert hg
          rcases callAction cb' .array ⟨rj, g, pool⟩ with ⟨st, _ | _ | r⟩
          · intro hg
            simp only
            rcases st.pool.pushAssoc posLayout [Pos.arrayMiddle.byte] nameArray with ⟨p, _ | e | _⟩
            · exact handleItem_stays (H.stays b1) F true { st with pool := p } hg
            · exact hg
            · exact hg
          · intro hg
            simp only
            rcases topPos st "Context stack is empty when handling ValueIsConsumed in array" with _ | _ | _ | _ <;> exact hg
          · exact id
  · rw [if_neg hp, if_neg hp]
    exact handleItem_led H F false rj b g pool hr

theorem onValue_led (H : Until cb cb' Rel Q) (F : Nat) (opt : Options) (c : Byte) (pos : Pos) (rj : RJ) (b : β) (g : γ)
    (pool : Pool) (hr : Rel b g) :
    Led Rel Q Step.error (onValue F cb opt c pos ⟨rj, b, pool⟩) (onValue F cb' opt c pos ⟨rj, g, pool⟩) := by
  rw [onValue_eq, onValue_eq]
  by_cases h1 : c = 91
  · rw [if_pos h1, if_pos h1]
    exact led_plain hr
  · rw [if_neg h1, if_neg h1]
    by_cases h2 : c = 123
    · rw [if_pos h2, if_pos h2]
      exact led_plain hr
    · rw [if_neg h2, if_neg h2]
      rcases callAction_led H .atom rj b g pool hr with ⟨g1, e, hg⟩ | ⟨⟨m, i, e⟩, hg⟩
      · rw [e]
        revert hg
        rcases callAction cb .atom ⟨rj, b, pool⟩ with ⟨⟨rj1, b1, pl1⟩, _ | _ | r⟩
        · intro hg
          simp only
          obtain ⟨g2, e2, h⟩ := skipStep_same (Rel := Rel) (Q := fun _ _ _ _ => False) F opt c pos rj1 b1 g1 pl1 hg
          refine .inl ⟨g2, e2, ?_⟩
          rcases h with h | ⟨_, _, h⟩
          · exact h.1
          · exact h.elim
        · exact fun hg => led_plain hg
        · exact fun hg => .inl ⟨g1, rfl, hg⟩
      · revert e hg
        rcases callAction cb .atom ⟨rj, b, pool⟩ with ⟨⟨rj1, b1, pl1⟩, _ | _ | r⟩
        · exact nofun
        · exact nofun
        · intro hg e
          refine .inr ⟨⟨m, i, ?_⟩, ?_⟩
          · simp only [Step.error]
            rw [cast_error]
            exact e
          · revert hg
            rcases callAction cb' .atom ⟨rj, g, pool⟩ with ⟨st, _ | _ | r⟩
            · intro hg
              simp only
              rw [skipStep_baton]
              exact hg
            · exact id
            · exact id

theorem turn_led (H : Until cb cb' Rel Q) (F : Nat) (opt : Options) (pos : Pos) (rj : RJ) (b : β) (g : γ) (pool : Pool)
    (hr : Rel b g) : Led Rel Q Step.error (turn F cb opt pos ⟨rj, b, pool⟩) (turn F cb' opt pos ⟨rj, g, pool⟩) := by
  unfold turn
  by_cases h1 : pos = .objectBegin ∨ pos = .objectMiddle
  · rw [if_pos h1, if_pos h1]
    rcases handleObject_led H F pos rj b g pool hr with ⟨g1, e, hg⟩ | ⟨⟨m, i, e⟩, hg⟩
    · rw [e]
      revert hg
      rcases handleObject F cb pos ⟨rj, b, pool⟩ with ⟨⟨rj1, b1, pl1⟩, _ | _ | _ | _⟩ <;> exact fun hg => .inl ⟨g1, rfl, hg⟩
    · revert e hg
      rcases handleObject F cb pos ⟨rj, b, pool⟩ with ⟨⟨rj1, b1, pl1⟩, _ | e | _ | _⟩
      · exact nofun
      · intro hg e
        refine .inr ⟨⟨m, i, e⟩, ?_⟩
        revert hg
        rcases handleObject F cb' pos ⟨rj, g, pool⟩ with ⟨st, _ | _ | _ | _⟩ <;> exact id
      · exact nofun
      · exact nofun
  · rw [if_neg h1, if_neg h1]
    by_cases h2 : pos = .arrayBegin ∨ pos = .arrayMiddle
    · rw [if_pos h2, if_pos h2]
      rcases handleArray_led H F pos rj b g pool hr with ⟨g1, e, hg⟩ | ⟨⟨m, i, e⟩, hg⟩
      · rw [e]
        revert hg
        rcases handleArray F cb pos ⟨rj, b, pool⟩ with ⟨⟨rj1, b1, pl1⟩, ⟨_ | c, p⟩ | _ | _ | _⟩
        · exact fun hg => .inl ⟨g1, rfl, hg⟩
        · intro hg
          simp only
          by_cases h3 : p = .arrayMiddle
          · rw [if_pos h3, if_pos h3]
            exact onValue_led H F opt c .arrayMiddle rj1 b1 g1 pl1 hg
          · rw [if_neg h3, if_neg h3]
            exact led_plain hg
        · exact fun hg => .inl ⟨g1, rfl, hg⟩
        · exact fun hg => .inl ⟨g1, rfl, hg⟩
        · exact fun hg => .inl ⟨g1, rfl, hg⟩
      · revert e hg
        rcases handleArray F cb pos ⟨rj, b, pool⟩ with ⟨⟨rj1, b1, pl1⟩, _ | e | _ | _⟩
        · exact nofun
        · intro hg e
          refine .inr ⟨⟨m, i, e⟩, ?_⟩
          revert hg
          rcases handleArray F cb' pos ⟨rj, g, pool⟩ with ⟨st, ⟨_ | c, p⟩ | _ | _ | _⟩
          · exact id
          · intro hg
            simp only
            by_cases h3 : p = .arrayMiddle
            · rw [if_pos h3]
              exact onValue_stays (H.stays b1) F opt c .arrayMiddle st hg
            · rw [if_neg h3]
              exact hg
          · exact id
          · exact id
          · exact id
        · exact nofun
        · exact nofun
    · rw [if_neg h2, if_neg h2]
      simp only
      rcases rj.peek F with ⟨rj, c | e | _ | _⟩
      · exact onValue_led H F opt c _ rj b g pool hr
      · simp only
        by_cases h3 : e.type = .json .eofWhileParsingValue
        · rw [if_pos h3, if_pos h3]
          by_cases h4 : pos ≠ .top
          · rw [if_pos h4, if_pos h4]
            exact led_plain hr
          · rw [if_neg h4, if_neg h4]
            rcases rj.finish F with ⟨rj2, _ | _ | _ | _⟩ <;> exact led_plain hr
        · rw [if_neg h3, if_neg h3]
          exact led_plain hr
      · exact led_plain hr
      · exact led_plain hr

theorem mainLoop_led (H : Until cb cb' Rel Q) (F : Nat) (opt : Options) : ∀ (n : Nat) (pr : Bool) (pos : Pos) (rj : RJ)
    (b : β) (g : γ) (pool : Pool), Rel b g →
      Led Rel Q SRes.error (mainLoop F cb opt n pr pos ⟨rj, b, pool⟩) (mainLoop F cb' opt n pr pos ⟨rj, g, pool⟩) := by
  intro n
  induction n with
  | zero => intro pr pos rj b g pool hr; exact led_plain hr
  | succ n ih =>
    intro pr pos rj b g pool hr
    unfold mainLoop
    by_cases h1 : pr ∧ opt.stopEarly ∧ pos = .top
    · rw [if_pos h1, if_pos h1]
      exact led_plain hr
    · rw [if_neg h1, if_neg h1]
      rcases turn_led H F opt pos rj b g pool hr with ⟨g1, e, hg⟩ | ⟨⟨m, i, e⟩, hg⟩
      · rw [e]
        revert hg
        rcases turn F cb opt pos ⟨rj, b, pool⟩ with ⟨⟨rj1, b1, pl1⟩, p | r⟩
        · exact fun hg => ih true p rj1 b1 g1 pl1 hg
        · exact fun hg => .inl ⟨g1, rfl, hg⟩
      · revert e hg
        rcases turn F cb opt pos ⟨rj, b, pool⟩ with ⟨⟨rj1, b1, pl1⟩, p | r⟩
        · exact nofun
        · intro hg e
          refine .inr ⟨⟨m, i, e⟩, ?_⟩
          revert hg
          rcases turn F cb' opt pos ⟨rj, g, pool⟩ with ⟨st, p | r⟩
          · exact mainLoop_stays (H.stays b1) F opt n true p st
          · exact id

/-- Whatever the input: two scans with callbacks that answer alike end alike, or an action of the first has failed. -/
theorem scan_led (H : Until cb cb' Rel Q) (turns F : Nat) (opt : Options) (rj : RJ) (b : β) (g : γ) (pool : Pool) (hr : Rel b g) :
    Led Rel Q SRes.error (scan turns F cb opt ⟨rj, b, pool⟩) (scan turns F cb' opt ⟨rj, g, pool⟩) := by
  unfold scan
  simp only
  rcases pool.pushAssoc posLayout [Pos.top.byte] nameTop with ⟨p, _ | e | _⟩
  · exact mainLoop_led H F opt turns false .top rj b g p hr
  · exact led_plain hr
  · exact led_plain hr

end

end Verif.Scan
