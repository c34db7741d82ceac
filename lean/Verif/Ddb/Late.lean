import Verif.Scan.LateIdt
import Verif.Ddb.ToNormal

/-!
# `convert_ddb_to_normal` with a reader that fails where another one ends
-/

namespace Verif.Ddb

open Verif.RJiter
open Verif.Scan (Action Acted StreamOp Patient BothAct Primed Ctx Pseudo waits_act waits_long)

namespace ToNormal

/-- The same has been written. -/
def SameD (a b : ToNormal) : Prop := a.d = b.d

variable {k F : Nat}

theorem run_both (x : Step) {s : RJ} (hr : Primed F s) {g : Action ToNormal}
    (hg : ∀ b, BothAct k F SameD (g s b) (g (s.late k) b)) : BothAct k F SameD (x.run s g) (x.run (s.late k) g) := by
  rcases x with ⟨b, _ | m⟩
  · exact hg b
  · exact .still hr rfl rfl

theorem act_both (f : ToNormal → Step) (op : StreamOp) {s : RJ} (hr : Primed F s) (b : ToNormal) :
    BothAct k F SameD (act f op s b) (act f op (s.late k) b) :=
  run_both _ hr fun _ => .still hr rfl rfl

theorem writeString_both (quotes : Bool) (pc wc : String) {s : RJ} (hr : Primed F s) (b : ToNormal) :
    BothAct k F SameD (writeString F quotes pc wc s b) (writeString F quotes pc wc (s.late k) b) := by
  have hl : 2 ≤ s.b.buf.length := by have := hr.usable.len; omega
  unfold writeString
  refine waits_act (RJ.peek_waits k F hr.usable.sync) (RJ.peek_runs hr.usable.sync hl hr.usable.fuel) hr (g := fun x => match x with
    | (rj, .ok peek) =>
      if peek ≠ 34 then ((rj, b), .op (.error "Expected string value"))
      else
        (b.writeComma.bind (quote quotes "writing opening quote")).run rj fun rj b =>
          match rj.writeLongBytes F b.d.w with
          | ((rj, w), .ok ()) =>
            act (fun b => b.flushLong.bind fun b => (b.quote quotes "writing closing quote").bind
              (set fun b => { b with comma := true })) .valueIsConsumed rj { b with d := { b.d with w := w } }
          | ((rj, w), .err e) => ((rj, ({ b with d := { b.d with w := w } } : ToNormal).storeRj e wc), .op (.error "Failed to write value"))
          | ((rj, w), .panic) => ((rj, { b with d := { b.d with w := w } }), .panic)
          | ((rj, w), .diverge) => ((rj, { b with d := { b.d with w := w } }), .diverge)
    | (rj, .err e) => ((rj, b.storeRj e pc), .op (.error "Failed to peek string value"))
    | (rj, .panic) => ((rj, b), .panic)
    | (rj, .diverge) => ((rj, b), .diverge)) ?_ ?_ ?_
  · intro s' v hs
    simp only
    split
    · exact .still hs rfl rfl
    · refine run_both _ hs fun b => ?_
      refine waits_long .raw b.d.w hs (g := fun x => match x with
        | ((rj, w), .ok ()) =>
          act (fun b => b.flushLong.bind fun b => (b.quote quotes "writing closing quote").bind
            (set fun b => { b with comma := true })) .valueIsConsumed rj { b with d := { b.d with w := w } }
        | ((rj, w), .err e) => ((rj, ({ b with d := { b.d with w := w } } : ToNormal).storeRj e wc), .op (.error "Failed to write value"))
        | ((rj, w), .panic) => ((rj, { b with d := { b.d with w := w } }), .panic)
        | ((rj, w), .diverge) => ((rj, { b with d := { b.d with w := w } }), .diverge)) ?_ ?_ ?_
      · intro s2 w2 hs2
        exact act_both _ _ hs2 _
      · intro s2 w2 e
        exact ⟨_, _, rfl, rfl⟩
      · intro s2 w2 e t i
        rfl
  · intro s' e
    exact ⟨_, _, rfl, rfl⟩
  · intro s' e t i
    rfl

theorem writeBool_both (output : Byte → Bytes × Option String) (name : String) {s : RJ} (hr : Primed F s) (b : ToNormal) :
    BothAct k F SameD (writeBool F output name s b) (writeBool F output name (s.late k) b) := by
  have hl : 2 ≤ s.b.buf.length := by have := hr.usable.len; omega
  unfold writeBool
  refine waits_act (RJ.peek_waits k F hr.usable.sync) (RJ.peek_runs hr.usable.sync hl hr.usable.fuel) hr (g := fun x => match x with
    | (rj, .ok peek) =>
      match output peek with
      | (_, some m) => ((rj, b), .op (.error m))
      | (bytes, none) =>
        b.writeComma.run rj fun rj b =>
          match rj.knownBool F peek with
          | (rj, .ok _) =>
            act (fun b => (b.put bytes name).bind (set fun b => { b with comma := true, type := none })) .valueIsConsumed rj b
          | (rj, .err e) => ((rj, b.storeRj e name), .op (.error "Failed to consume boolean value"))
          | (rj, .panic) => ((rj, b), .panic)
          | (rj, .diverge) => ((rj, b), .diverge)
    | (rj, .err e) => ((rj, b.storeRj e name), .op (.error "Failed to peek value"))
    | (rj, .panic) => ((rj, b), .panic)
    | (rj, .diverge) => ((rj, b), .diverge)) ?_ ?_ ?_
  · intro s' v hs
    have hl' : 2 ≤ s'.b.buf.length := by have := hs.usable.len; omega
    simp only
    rcases output v with ⟨bytes, _ | m⟩
    · refine run_both _ hs fun b => ?_
      refine waits_act (RJ.knownBool_waits k F hs.usable.sync v) (RJ.knownBool_runs v hs.usable.sync hl' hs.usable.fuel) hs (g := fun x => match x with
        | (rj, .ok _) =>
          act (fun b => (b.put bytes name).bind (set fun b => { b with comma := true, type := none })) .valueIsConsumed rj b
        | (rj, .err e) => ((rj, b.storeRj e name), .op (.error "Failed to consume boolean value"))
        | (rj, .panic) => ((rj, b), .panic)
        | (rj, .diverge) => ((rj, b), .diverge)) ?_ ?_ ?_
      · intro s2 v2 hs2
        exact act_both _ _ hs2 _
      · intro s2 e
        exact ⟨_, _, rfl, rfl⟩
      · intro s2 e t i
        rfl
    · exact .still hs rfl rfl
  · intro s' e
    exact ⟨_, _, rfl, rfl⟩
  · intro s' e t i
    rfl

theorem settle_both {f : ToNormal → ToNormal} (hf : ∀ b, (f b).d = b.d) {x y : (RJ × ToNormal) × Acted} (h : BothAct k F SameD x y) :
    BothAct k F SameD (settle f x) (settle f y) := by
  rcases x with ⟨⟨s, b⟩, o | _ | _⟩
  · rcases h with ⟨rfl, h⟩ | rfl | ⟨h1, h2, m, h3⟩
    · exact .inl ⟨rfl, h⟩
    · exact .inr (.inl rfl)
    · rcases y with ⟨⟨s2, b2⟩, r⟩
      simp only at h3
      subst h3
      refine .inr (.inr ⟨?_, h2, m, rfl⟩)
      simp only [SameD, settle, hf]
      exact h1
  · rcases h with ⟨rfl, h⟩ | rfl | ⟨h1, h2, m, h3⟩
    · exact .inl ⟨rfl, h⟩
    · exact .inr (.inl rfl)
    · rcases y with ⟨⟨s2, b2⟩, r⟩
      simp only at h3
      subst h3
      refine .inr (.inr ⟨?_, h2, m, rfl⟩)
      simp only [SameD, settle, hf]
      exact h1
  · rcases h with ⟨rfl, h⟩ | rfl | ⟨h1, h2, m, h3⟩
    · exact .inl ⟨rfl, h⟩
    · exact .inr (.inl rfl)
    · rcases y with ⟨⟨s2, b2⟩, r⟩
      simp only at h3
      subst h3
      refine .inr (.inr ⟨?_, h2, m, rfl⟩)
      simp only [SameD, settle, hf]
      exact h1

theorem onTypeKey_both {s : RJ} (hr : Primed F s) (b : ToNormal) : BothAct k F SameD (onTypeKey F s b) (onTypeKey F (s.late k) b) := by
  unfold onTypeKey
  rcases b.field with _ | key
  · exact .still hr rfl rfl
  · simp only
    repeat' split
    · refine settle_both ?_ (writeString_both _ _ _ hr b); intro _; rfl
    · refine settle_both ?_ (writeString_both _ _ _ hr b); intro _; rfl
    · refine settle_both ?_ (writeBool_both _ _ hr b); intro _; rfl
    · refine settle_both ?_ (writeBool_both _ _ hr b); intro _; rfl
    · exact act_both _ _ hr b
    · exact act_both _ _ hr b
    · exact act_both _ _ hr b
    · exact act_both _ _ hr b
    · exact .still hr rfl rfl

/-- An action that does the same up to the end. -/
def Steady1 (k F : Nat) (act : Action ToNormal) : Prop := ∀ s, Primed F s → ∀ b, BothAct k F SameD (act s b) (act (s.late k) b)

theorem onError_steady : Steady1 k F onError := fun _ hr _ => .still hr rfl rfl

theorem find_steady (p : Pseudo) (c : Ctx) (b : ToNormal) (act : Action ToNormal) (h : (find F p c b).2 = some act) : Steady1 k F act := by
  have hact : ∀ f op, Steady1 k F (ToNormal.act f op) := fun f op s hr b => act_both f op hr b
  have htk : Steady1 k F (onTypeKey F) := fun s hr b => onTypeKey_both hr b
  have hrej : ∀ {cx : String} {b : ToNormal}, (reject cx b).2 = some act → Steady1 k F act := by
    intro cx b h
    injection h with h; subst h; exact onError_steady
  unfold find at h
  cases p with
  | object =>
    simp only [findObject] at h
    repeat' split at h
    all_goals first
      | exact hrej h
      | (injection h with h; subst h; exact hact _ _)
      | cases h
  | none =>
    simp only [findKey] at h
    repeat' split at h
    all_goals first
      | exact hrej h
      | (injection h with h; subst h; first | exact hact _ _ | exact htk)
      | cases h
  | array =>
    simp only [findArray] at h
    repeat' split at h
    all_goals first
      | exact hrej h
      | cases h
  | atom =>
    simp only [findAtom] at h
    repeat' split at h
    all_goals first
      | exact hrej h
      | (injection h with h; subst h; exact fun s hr b => writeString_both _ _ _ hr b)

theorem patient (k F : Nat) : Patient (callbacks F) k F SameD :=
  ⟨fun _ => rfl, fun p c b _ hr act hact => find_steady p c b act hact _ hr _⟩

end ToNormal

end Verif.Ddb
