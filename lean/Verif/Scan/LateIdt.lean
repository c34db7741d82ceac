import Verif.Scan.Late
import Verif.Scan.Idt

/-!
# `idtransform` with a reader that fails where another one ends
-/

namespace Verif.Scan

open Verif.RJiter

variable {β : Type} {k F : Nat}

/-! ## Parts of actions -/

/-- Nothing of the parser is used. -/
theorem BothAct.still {Alike : β → β → Prop} {x y : (RJ × β) × Acted} {s : RJ} (hr : Primed F s) (h1 : x.1.1 = s)
    (h2 : y = ((x.1.1.late k, x.1.2), x.2)) : BothAct k F Alike x y :=
  .inl ⟨h2, fun _ => by rw [h1]; exact hr⟩

/-- A parser call in an action, and the rest of the action. -/
theorem waits_act {α : Type} {Alike : β → β → Prop} {s : RJ} {x y : RJ × Res α} {m : Nat} (hw : RJ.Waits k x y) (hrun : s.Runs m x)
    (hr : Primed F s) {g : RJ × Res α → (RJ × β) × Acted}
    (hok : ∀ s' v, Primed F s' → BothAct k F Alike (g (s', .ok v)) (g (s'.late k, .ok v)))
    (herr : ∀ s' e, ∃ b m, g (s', .err e) = ((s', b), .op (.error m)) ∧ g (s'.late k, .err e) = ((s'.late k, b), .op (.error m)))
    (hio : ∀ s' e t i, Alike (g (s', .err e)).1.2 (g (t, .err ⟨.io k, i⟩)).1.2) :
    BothAct k F Alike (g x) (g y) := by
  rcases x with ⟨s', v | e | _ | _⟩
  · obtain ⟨n, _, hm⟩ := hrun
    rcases hw with rfl | ⟨_, h⟩
    · exact hok _ _ (hr.moved hm)
    · exact absurd rfl (h v)
  · rcases hw with rfl | ⟨⟨i, h⟩, _⟩
    · obtain ⟨b, m, h1, h2⟩ := herr s' e
      left
      simp only
      rw [h1, h2]
      exact ⟨rfl, fun h => by rcases h with h | h <;> cases h⟩
    · rcases y with ⟨t, r⟩
      simp only at h
      subst h
      obtain ⟨b, m, h1, -⟩ := herr s' e
      obtain ⟨b', m', h3, -⟩ := herr t ⟨.io k, i⟩
      have := hio s' e t i
      rw [h1, h3] at this
      right; right
      rw [h1, h3]
      exact ⟨this, by simp, m', rfl⟩
  · exact hrun.elim
  · exact hrun.elim

/-- Writing a long string in an action, and the rest of the action. -/
theorem waits_long {Alike : β → β → Prop} {s : RJ} (kd : RJ.Kind) (w : Writer) (hr : Primed F s)
    {g : (RJ × Writer) × Res Unit → (RJ × β) × Acted}
    (hok : ∀ s' w', Primed F s' → BothAct k F Alike (g ((s', w'), .ok ())) (g ((s'.late k, w'), .ok ())))
    (herr : ∀ s' w' e, ∃ b m, g ((s', w'), .err e) = ((s', b), .op (.error m)) ∧
      g ((s'.late k, w'), .err e) = ((s'.late k, b), .op (.error m)))
    (hio : ∀ s' w' e t i, Alike (g ((s', w'), .err e)).1.2 (g ((t, w'), .err ⟨.io k, i⟩)).1.2) :
    BothAct k F Alike (g (s.handleLong kd F w)) (g ((s.late k).handleLong kd F w)) := by
  have hrun := RJ.handleLong_runs kd w hr.usable.sync hr.usable.len hr.usable.fuel
  have hw := RJ.handleLong_waits k kd F s w
  generalize s.handleLong kd F w = x at hrun hw
  generalize (s.late k).handleLong kd F w = y at hw
  rcases x with ⟨⟨s', w'⟩, v | e | _ | _⟩
  · obtain ⟨n, _, hm⟩ := hrun
    rcases hw with rfl | ⟨_, h, _⟩
    · exact hok _ _ (hr.moved hm)
    · exact absurd rfl (h v)
  · rcases hw with rfl | ⟨⟨i, h⟩, _, hw⟩
    · obtain ⟨b, m, h1, h2⟩ := herr s' w' e
      left
      simp only
      rw [h1, h2]
      exact ⟨rfl, fun h => by rcases h with h | h <;> cases h⟩
    · rcases y with ⟨⟨t, w2⟩, r⟩
      simp only at h hw
      subst h hw
      obtain ⟨b, m, h1, -⟩ := herr s' w2 e
      obtain ⟨b', m', h3, -⟩ := herr t w2 ⟨.io k, i⟩
      have := hio s' w2 e t i
      rw [h1, h3] at this
      right; right
      rw [h1, h3]
      exact ⟨this, by simp, m', rfl⟩
  · exact hrun.elim
  · exact hrun.elim

/-! ## `idtransform` -/

/-- The same has been written. -/
def SameW (a b : Idt) : Prop := a.w = b.w

theorem storeError_w (b : Idt) (e : SErr) : (b.storeError e).w = b.w := by
  unfold Idt.storeError
  split
  · rfl
  · split <;> rfl
  · rfl

/-- What `on_atom` does with the result of `copy_atom`. -/
def stored (b : Idt) : (RJ × Writer) × SRes Unit → (RJ × Idt) × Acted
  | ((rj, w), .ok ()) => ((rj, { b with w := w }), .op .valueIsConsumed)
  | ((rj, w), .err e) => ((rj, ({ b with w := w } : Idt).storeError e), .op (.error "Error copying atom (stored in idt)"))
  | ((rj, w), .panic) => ((rj, { b with w := w }), .panic)
  | ((rj, w), .diverge) => ((rj, { b with w := w }), .diverge)

theorem io_stored (b : Idt) {s' : RJ} (hs : Primed F s') (x : Writer × Option Nat) :
    BothAct k F SameW (stored b (ioResult s' x)) (stored b (ioResult (s'.late k) x)) := by
  rcases x with ⟨w, _ | kd⟩ <;> exact .still hs rfl rfl

theorem copyWord_both {α : Type} {s : RJ} {x y : RJ × Res α} {m : Nat} (hw : RJ.Waits k x y) (hrun : s.Runs m x) (hr : Primed F s) (b : Idt)
    (word : Bytes) : BothAct k F SameW (stored b (copyWord word b.w x)) (stored b (copyWord word b.w y)) := by
  refine waits_act hw hrun hr (g := fun x => stored b (copyWord word b.w x)) ?_ ?_ ?_
  · intro s' v hs
    exact io_stored b hs _
  · intro s' e
    exact ⟨_, _, rfl, rfl⟩
  · intro s' e t i
    simp only [SameW, copyWord, stored, storeError_w]

theorem copyAtom_both (c : Byte) {s : RJ} (hr : Primed F s) (b : Idt) :
    BothAct k F SameW (stored b (copyAtom F c s b.w)) (stored b (copyAtom F c (s.late k) b.w)) := by
  have hl : 2 ≤ s.b.buf.length := by have := hr.usable.len; omega
  have hsy := hr.usable.sync
  have hfu := hr.usable.fuel
  unfold copyAtom
  by_cases c1 : c = 34
  · simp only [c1, if_true]
    rcases b.w.writeAll [34] with ⟨w, _ | kd⟩
    · simp only
      refine waits_long .raw w hr (g := fun x => stored b (match x with
          | ((rj, w), .ok ()) => ioResult rj (w.writeAll [34])
          | ((rj, w), .err e) => ((rj, w), .err (.rjiter e))
          | ((rj, w), .panic) => ((rj, w), .panic)
          | ((rj, w), .diverge) => ((rj, w), .diverge))) ?_ ?_ ?_
      · intro s' w' hs
        exact io_stored b hs _
      · intro s' w' e
        exact ⟨_, _, rfl, rfl⟩
      · intro s' w' e t i
        simp only [SameW, stored, storeError_w]
    · exact .still hr rfl rfl
  · simp only [c1, if_false]
    by_cases c2 : c = 110
    · simp only [c2, if_true]
      exact copyWord_both (RJ.knownNull_waits k F hsy) (RJ.knownNull_runs hsy hl hfu) hr b _
    · simp only [c2, if_false]
      by_cases c3 : c = 116
      · simp only [c3, if_true]
        exact copyWord_both (RJ.knownBool_waits k F hsy _) (RJ.knownBool_runs _ hsy hl hfu) hr b _
      · simp only [c3, if_false]
        by_cases c4 : c = 102
        · simp only [c4, if_true]
          exact copyWord_both (RJ.knownBool_waits k F hsy _) (RJ.knownBool_runs _ hsy hl hfu) hr b _
        · simp only [c4, if_false]
          refine waits_act (nextNumber_waits k hr) (RJ.nextNumberBytes_runs hsy hl hfu) hr (g := fun x => stored b (match x with
            | (rj, .ok number) => ioResult rj (b.w.writeAll number)
            | (rj, .err _) => ((rj, b.w), .err (.unhandledPeek c rj.currentIndex))
            | (rj, .panic) => ((rj, b.w), .panic)
            | (rj, .diverge) => ((rj, b.w), .diverge))) ?_ ?_ ?_
          · intro s' v hs
            exact io_stored b hs _
          · intro s' e
            exact ⟨_, _, rfl, rfl⟩
          · intro s' e t i
            simp only [SameW, stored, storeError_w]

theorem onAtom_eq (fuel : Nat) (rj : RJ) (b : Idt) : Idt.onAtom fuel rj b =
    match b.writeSeqpos with
    | (b, some m) => ((rj, b), .op (.error m))
    | (b, none) =>
      match rj.peek fuel with
      | (rj, .ok peeked) => stored b (copyAtom fuel peeked rj b.w)
      | (rj, .err e) => ((rj, b.storeError (.rjiter e)), .op (.error "RJiter error (stored in idt)"))
      | (rj, .panic) => ((rj, b), .panic)
      | (rj, .diverge) => ((rj, b), .diverge) := by
  unfold Idt.onAtom
  rcases b.writeSeqpos with ⟨b, _ | m⟩
  · simp only
    rcases rj.peek fuel with ⟨s, c | e | _ | _⟩
    · simp only
      rcases copyAtom fuel c s b.w with ⟨⟨s', w⟩, _ | e | _ | _⟩ <;> rfl
    all_goals rfl
  · rfl

theorem idt_patient (k F : Nat) : Patient (Idt.callbacks F) k F SameW := by
  refine ⟨fun b => rfl, ?_⟩
  intro p c b s hr act hact
  have hl : 2 ≤ s.b.buf.length := by have := hr.usable.len; omega
  have hstruct : ∀ (bs : Bytes) (b : Idt), BothAct k F SameW (Idt.onStruct bs s b) (Idt.onStruct bs (s.late k) b) := by
    intro bs b
    unfold Idt.onStruct
    rcases b.writeSeqpos with ⟨b, _ | m⟩
    · simp only
      rcases b.write bs "IO error writing struct" with ⟨b, _ | m⟩ <;> exact .still hr rfl rfl
    · exact .still hr rfl rfl
  have hatom : ∀ (b : Idt), BothAct k F SameW (Idt.onAtom F s b) (Idt.onAtom F (s.late k) b) := by
    intro b
    rw [onAtom_eq, onAtom_eq]
    rcases b.writeSeqpos with ⟨b, _ | m⟩
    · simp only
      refine waits_act (RJ.peek_waits k F hr.usable.sync) (RJ.peek_runs hr.usable.sync hl hr.usable.fuel) hr (g := fun x => match x with
        | (rj, .ok peeked) => stored b (copyAtom F peeked rj b.w)
        | (rj, .err e) => ((rj, b.storeError (.rjiter e)), .op (.error "RJiter error (stored in idt)"))
        | (rj, .panic) => ((rj, b), .panic)
        | (rj, .diverge) => ((rj, b), .diverge)) ?_ ?_ ?_
      · intro s' v hs
        exact copyAtom_both v hs b
      · intro s' e
        exact ⟨_, _, rfl, rfl⟩
      · intro s' e t i
        simp only [SameW, storeError_w]
    · exact .still hr rfl rfl
  have hkey : ∀ (b : Idt), BothAct k F SameW (Idt.onKey s b) (Idt.onKey (s.late k) b) := by
    intro b
    unfold Idt.onKey
    rcases b.writeSeqpos with ⟨b, _ | m⟩ <;> exact .still hr rfl rfl
  change ((Idt.find F p c b).2 = some act) at hact
  change BothAct k F SameW (act s (Idt.find F p c b).1) (act (s.late k) (Idt.find F p c b).1)
  unfold Idt.find at hact ⊢
  cases p with
  | none =>
    simp only at hact ⊢
    revert hact
    split
    · split
      · intro hact; injection hact with hact; subst hact; exact hkey _
      · intro hact; cases hact
    · intro hact; cases hact
  | array => injection hact with hact; subst hact; exact hstruct _ _
  | object => injection hact with hact; subst hact; exact hstruct _ _
  | atom => injection hact with hact; subst hact; exact hatom _

end Verif.Scan
