import Verif.Scan.Ahead
import Verif.Ddb.ToNormal
import Verif.Ddb.ToDdb

/-!
# What the converters read in advance (C108)
-/

namespace Verif.Ddb

open Verif.U8Pool (Pool)
open Verif.RJiter (RJ Err Res Reader Writer Calls Op WithinBuffer)
open Verif.Scan

variable {F : Nat}

namespace ToNormal

/-- The action uses the parser by its calls. -/
abbrev By (s : RJ) (x : (RJ × ToNormal) × Acted) : Prop := Calls s x.1.1

theorem by_run (x : Step) {s0 s : RJ} {k : Action ToNormal} (h : Calls s0 s) (hk : ∀ b, By s0 (k s b)) : By s0 (x.run s k) := by
  unfold Step.run
  rcases x with ⟨b, _ | m⟩
  · exact hk b
  · exact h

theorem by_act (f : ToNormal → Step) (op : StreamOp) {s0 s : RJ} (h : Calls s0 s) (b : ToNormal) : By s0 (act f op s b) :=
  by_run (f b) h fun _ => h

theorem by_settle (f : ToNormal → ToNormal) {s : RJ} {x : (RJ × ToNormal) × Acted} (h : By s x) : By s (settle f x) := by
  rcases x with ⟨⟨s', b⟩, (_ | _ | m) | _ | _⟩ <;> exact h

theorem by_writeString (quotes : Bool) (pc wc : String) (s : RJ) (b : ToNormal) : By s (writeString F quotes pc wc s b) := by
  unfold writeString
  have h1 := Calls.one .peek F s
  simp only [Op.run] at h1
  rcases hp : s.peek F with ⟨s1, c | e | _ | _⟩ <;> rw [hp] at h1
  · simp only
    split
    · exact h1
    · refine by_run _ h1 fun b1 => ?_
      have h2 := h1.trans (Calls.one (.writeLongBytes b1.d.w) F s1)
      simp only [Op.run] at h2
      rcases hw : s1.writeLongBytes F b1.d.w with ⟨⟨s2, w⟩, u | e | _ | _⟩ <;> rw [hw] at h2
      · exact by_act _ _ h2 _
      · exact h2
      · exact h2
      · exact h2
  · exact h1
  · exact h1
  · exact h1

theorem by_writeBool (output : Byte → Bytes × Option String) (name : String) (s : RJ) (b : ToNormal) : By s (writeBool F output name s b) := by
  unfold writeBool
  have h1 := Calls.one .peek F s
  simp only [Op.run] at h1
  rcases hp : s.peek F with ⟨s1, c | e | _ | _⟩ <;> rw [hp] at h1
  · simp only
    rcases output c with ⟨bytes, _ | m⟩
    · refine by_run _ h1 fun b1 => ?_
      have h2 := h1.trans (Calls.one (.knownBool c) F s1)
      simp only [Op.run] at h2
      rcases hk : s1.knownBool F c with ⟨s2, u | e | _ | _⟩ <;> rw [hk] at h2
      · exact by_act _ _ h2 _
      · exact h2
      · exact h2
      · exact h2
    · exact h1
  · exact h1
  · exact h1
  · exact h1

theorem by_onTypeKey (s : RJ) (b : ToNormal) : By s (onTypeKey F s b) := by
  have hr := Calls.nil s
  unfold onTypeKey
  cases b.field with
  | none => exact hr
  | some key =>
    simp only
    split
    · exact by_settle _ (by_writeString _ _ _ _ _)
    split
    · exact by_settle _ (by_writeString _ _ _ _ _)
    split
    · exact by_settle _ (by_writeBool _ _ _ _)
    split
    · exact by_settle _ (by_writeBool _ _ _ _)
    split
    · exact by_act _ _ hr _
    split
    · exact by_act _ _ hr _
    split
    · exact by_act _ _ hr _
    split
    · exact by_act _ _ hr _
    · exact hr

theorem obeys (F : Nat) : Obeys (callbacks F) := by
  intro p c b b' a s h
  have h : find F p c b = (b', some a) := h
  have hr := Calls.nil s
  have hrej : ∀ c, reject c b = (b', some a) → By s (a s b') := by
    intro c hc
    simp only [reject, Prod.mk.injEq, Option.some.injEq] at hc
    rw [← hc.2]; exact hr
  have hact : ∀ (f : ToNormal → Step) (b1 : ToNormal), (b1, some (act f .none)) = (b', some a) → By s (a s b') := by
    intro f b1 hc
    simp only [Prod.mk.injEq, Option.some.injEq] at hc
    rw [← hc.2]; exact by_act _ _ hr _
  have hkey : ∀ (b1 : ToNormal), (b1, some (onTypeKey F)) = (b', some a) → By s (a s b') := by
    intro b1 hc
    simp only [Prod.mk.injEq, Option.some.injEq] at hc
    rw [← hc.2]; exact by_onTypeKey _ _
  have hno : ∀ (b1 : ToNormal), (b1, none) = (b', some a) → By s (a s b') := by
    intro b1 hc; simp at hc
  cases p with
  | object =>
    simp only [find, findObject] at h
    repeat' split at h
    all_goals first | exact hno _ h | exact hrej _ h | exact hact _ _ h
  | none =>
    simp only [find, findKey] at h
    repeat' split at h
    all_goals first | exact hno _ h | exact hrej _ h | exact hact _ _ h | exact hkey _ h
  | array =>
    simp only [find, findArray] at h
    repeat' split at h
    all_goals first | exact hno _ h | exact hrej _ h
  | atom =>
    simp only [find, findAtom] at h
    split at h
    · exact hrej _ h
    · split at h
      · simp only [Prod.mk.injEq, Option.some.injEq] at h
        rw [← h.2]
        split <;> exact by_writeString _ _ _ _ _
      · exact hrej _ h

end ToNormal

namespace ToDdb

/-- The action uses the parser by its calls. -/
abbrev By (s : RJ) (x : (RJ × ToDdb) × Acted) : Prop := Calls s x.1.1

theorem by_run (x : Step) {s0 s : RJ} {k : Action ToDdb} (h : Calls s0 s) (hk : ∀ b, By s0 (k s b)) : By s0 (x.run s k) := by
  unfold Step.run
  rcases x with ⟨b, _ | m⟩
  · exact hk b
  · exact h

theorem by_act (f : ToDdb → Step) (op : StreamOp) {s0 s : RJ} (h : Calls s0 s) (b : ToDdb) : By s0 (act f op s b) :=
  by_run (f b) h fun _ => h

theorem by_ignoring {α : Type} (b : ToDdb) (f : ToDdb → Step) (op : StreamOp) {s0 : RJ} {x : RJ × Res α} (h : Calls s0 x.1) :
    By s0 (ignoring b (act f op) x) := by
  rcases x with ⟨s, v | e | _ | _⟩
  · exact by_act _ _ h _
  · exact by_act _ _ h _
  · exact h
  · exact h

theorem by_onString (s : RJ) (b : ToDdb) : By s (onString F s b) := by
  unfold onString
  refine by_run _ (.nil s) fun b1 => ?_
  have h2 := Calls.one (.writeLongBytes b1.d.w) F s
  simp only [Op.run] at h2
  rcases hw : s.writeLongBytes F b1.d.w with ⟨⟨s2, w⟩, u | e | _ | _⟩ <;> rw [hw] at h2
  · exact by_act _ _ h2 _
  · exact h2
  · exact h2
  · exact h2

theorem by_onBool (s : RJ) (b : ToDdb) : By s (onBool F s b) := by
  unfold onBool
  have h1 := Calls.one .peek F s
  simp only [Op.run] at h1
  rcases hp : s.peek F with ⟨s1, c | e | _ | _⟩ <;> rw [hp] at h1
  · refine by_run _ h1 fun b1 => ?_
    have h2 := h1.trans (Calls.one (.knownBool c) F s1)
    split
    · exact by_ignoring _ _ _ h2
    · split
      · exact by_ignoring _ _ _ h2
      · exact h1
  · exact h1
  · exact h1
  · exact h1

theorem by_onNull (s : RJ) (b : ToDdb) : By s (onNull F s b) := by
  unfold onNull
  have h1 := Calls.one .peek F s
  simp only [Op.run] at h1
  rcases hp : s.peek F with ⟨s1, c | e | _ | _⟩ <;> rw [hp] at h1
  · simp only
    split
    · exact h1
    · exact by_ignoring _ _ _ (h1.trans (Calls.one .knownNull F s1))
  · exact h1
  · exact h1
  · exact h1

theorem by_onNumber (s : RJ) (b : ToDdb) : By s (onNumber F s b) := by
  unfold onNumber
  have h1 := Calls.one .nextNumberBytes F s
  simp only [Op.run] at h1
  rcases hp : s.nextNumberBytes F with ⟨s1, c | e | _ | _⟩ <;> rw [hp] at h1
  · exact by_act _ _ h1 _
  · exact h1
  · exact h1
  · exact h1

theorem by_onAtom (s : RJ) (b : ToDdb) : By s (onAtom F s b) := by
  unfold onAtom
  refine by_run _ (.nil s) fun b1 => ?_
  have h1 := Calls.one .peek F s
  simp only [Op.run] at h1
  rcases hp : s.peek F with ⟨s1, c | e | _ | _⟩ <;> rw [hp] at h1
  · simp only
    split
    · exact h1.trans (by_onString s1 _)
    split
    · exact h1.trans (by_onBool s1 _)
    split
    · exact h1.trans (by_onNull s1 _)
    · exact h1.trans (by_onNumber s1 _)
  · exact h1
  · exact h1
  · exact h1

theorem by_onRootLiteral (s : RJ) (b : ToDdb) : By s (onRootLiteral F s b) := by
  unfold onRootLiteral
  refine by_run _ (.nil s) fun b1 => ?_
  have h1 := by_onAtom (F := F) s b1
  rcases hx : onAtom F s b1 with ⟨⟨s', b2⟩, o | _ | _⟩ <;> rw [hx] at h1
  · exact by_act _ _ h1 _
  · exact h1
  · exact h1

theorem obeys (F : Nat) : Obeys (callbacks F) := by
  intro p c b b' a s h
  have h : find F p c b = (b', some a) := h
  have ha := fun f op (b : ToDdb) => by_act f op (.nil s) b
  have he := fun b : ToDdb => show By s (onElementAtom F s b) from by_run _ (.nil s) fun b => by_onAtom s b
  unfold find at h
  revert h
  rcases c.path with _ | ⟨parent, r⟩
  · intro h
    cases p <;> simp only [Prod.mk.injEq, Option.some.injEq, reduceCtorEq, and_false] at h <;> obtain ⟨rfl, rfl⟩ := h
    · exact ha _ _ _
    · exact by_onAtom _ _
  · intro h
    simp only at h
    split at h
    · cases p <;> simp only [Prod.mk.injEq, Option.some.injEq, reduceCtorEq, and_false] at h <;> obtain ⟨rfl, rfl⟩ := h
      · exact ha _ _ _
      · exact ha _ _ _
      · exact by_onRootLiteral _ _
    · cases p <;> simp only [Prod.mk.injEq, Option.some.injEq] at h <;> obtain ⟨rfl, rfl⟩ := h
      · split <;> exact ha _ _ _
      · split <;> exact ha _ _ _
      · split
        · exact he _
        · exact by_onAtom _ _
      · exact ha _ _ _

end ToDdb

/-- **C108**, `convert_ddb_to_normal`: the parser, which the function drops, after any number of turns of the main loop. Any input, chunks, failures of
reading and writing, and buffers. -/
theorem C108_from_ddb (turns F : Nat) (input : Reader) (d : Dest) (buf : Bytes) (pool : Pool) (pretty unbuffered wrapper : Bool) :
    WithinBuffer input buf.length (scan turns F (ToNormal.callbacks F) ⟨[], false⟩ ⟨.new input buf, .new d pretty unbuffered wrapper, pool⟩).1.rj :=
  (ToNormal.obeys F).ahead turns F _ (st := ⟨.new input buf, .new d pretty unbuffered wrapper, pool⟩) (.nil _)

/-- **C108**, `convert_normal_to_ddb`. -/
theorem C108_to_ddb (turns F : Nat) (input : Reader) (d : Dest) (buf : Bytes) (pool : Pool) (pretty unbuffered wrapper : Bool) :
    WithinBuffer input buf.length (scan turns F (ToDdb.callbacks F) ⟨[], false⟩ ⟨.new input buf, .new d wrapper pretty unbuffered, pool⟩).1.rj :=
  (ToDdb.obeys F).ahead turns F _ (st := ⟨.new input buf, .new d wrapper pretty unbuffered, pool⟩) (.nil _)

/-- `{"a":1}⏎{"b":2}` at once, with a buffer of eight bytes: in front of the first turn's object eight bytes were taken, the rest in front of the second
object. -/
example : (fun n => (fun s : RJ => (RJiter.taken [.data 123 [34, 97, 34, 58, 49, 125, 10, 123, 34, 98, 34, 58, 50, 125]] s, s.currentIndex))
      (scan n 60 (ToDdb.callbacks 60) ⟨[], false⟩ ⟨.new [.data 123 [34, 97, 34, 58, 49, 125, 10, 123, 34, 98, 34, 58, 50, 125]] (List.replicate 8 0),
        .new ⟨⟨[], []⟩, []⟩ false false false, exPool⟩).1.rj) <$> [1, 2, 3, 4, 5] = [(8, 0), (8, 5), (8, 6), (8, 7), (15, 8)] := by
  decide +kernel

end Verif.Ddb
