import Verif.Ddb.ToDdb

/-!
# Property C46: does `convert_normal_to_ddb` always return?

No. On the input `tru` it writes for ever.
-/

namespace Verif.Ddb

open Verif.U8Pool (Pool)
open Verif.RJiter
open Verif.Scan

/-- The stack of `scan`, empty and at the top level. -/
@[irreducible] def endlessNew : Pool := ⟨34, 0, List.replicate 136 0, List.replicate 64 0⟩
@[inherit_doc endlessNew, irreducible] def endlessPool : Pool := (endlessNew.pushAssoc posLayout [Pos.top.byte] nameTop).1

/-- The parser in front of `tru`, all of which is in its buffer. -/
def endlessRJ : RJ := ⟨⟨[], [116, 114, 117, 0, 0, 0, 0, 0], 3, 0, 0, 0⟩, 3, 0⟩

/-- What is written for one pass over `tru`. -/
def endlessRow : Bytes := [123, 34, 66, 79, 79, 76, 34, 58, 116, 114, 117, 101, 125, 10]

/-- The converter when it has written `out`. -/
def endlessSt (out : Bytes) : St ToDdb :=
  ⟨endlessRJ, ⟨⟨⟨out, []⟩, []⟩, false, false, false, none, false, 0, none, false⟩, endlessPool⟩

theorem endless_path : (Ctx.of endlessPool).path = [nameTop] := by decide +kernel

/-- The action for `tru` writes `{"BOOL":true}`, and consumes nothing. -/
theorem endless_action (F : Nat) (out : Bytes) :
    ToDdb.onRootLiteral (F + 10) endlessRJ (endlessSt out).baton =
      ((endlessRJ, (endlessSt (out ++ endlessRow)).baton),
        .op .valueIsConsumed) := by
  have h : out ++ endlessRow = out ++ [123] ++ [34, 66, 79, 79, 76, 34, 58, 116, 114, 117, 101] ++ [125] ++ [10] := by
    simp [endlessRow]
  rw [h]
  rfl

theorem endless_turn (F : Nat) (rj : RJ) (out : Bytes) (h : rj.peek (F + 10) = (endlessRJ, .ok 116)) :
    turn (F + 10) (ToDdb.callbacks (F + 10)) ⟨[], false⟩ .top { endlessSt out with rj := rj } =
      (endlessSt (out ++ endlessRow), .next .top) := by
  have h2 : ToDdb.find (F + 10) .atom (.of endlessPool) (endlessSt out).baton =
      ((endlessSt out).baton, some (ToDdb.onRootLiteral (F + 10))) := by
    unfold ToDdb.find
    rw [endless_path]
    rfl
  unfold turn
  simp only [reduceCtorEq, or_self, if_false, h]
  unfold onValue callAction
  simp only [show (116 : Byte) ≠ 91 by decide, show (116 : Byte) ≠ 123 by decide, if_false,
    show (endlessSt out).pool = endlessPool from rfl, ToDdb.callbacks, h2, endless_action]
  rfl

theorem endless_loop (F n : Nat) : ∀ (out : Bytes) (pg : Bool),
    mainLoop (F + 10) (ToDdb.callbacks (F + 10)) ⟨[], false⟩ n pg .top (endlessSt out) =
      (endlessSt (out ++ (List.replicate n endlessRow).flatten), .diverge) := by
  induction n with
  | zero => intro out pg; simp [mainLoop]
  | succ n ih =>
    intro out pg
    rw [mainLoop]
    rw [show endlessSt out = { endlessSt out with rj := endlessRJ } from rfl]
    simp only [Bool.false_eq_true, false_and, and_false, if_false, endless_turn F endlessRJ out rfl, ih]
    simp [List.replicate_succ]

/-- Negation of property C46. `convert_normal_to_ddb` reads `tru`, does not consume it, and writes `{"BOOL":true}` and a
newline again and again: after `n` turns of the main loop of `scan` it has written that `n` times and it goes on. -/
theorem C46_endless (n F : Nat) :
    (convertNormalToDdb n (F + 10) [.data 116 [114, 117]] ⟨⟨[], []⟩, []⟩ (List.replicate 8 0) (List.replicate 200 0)
      false false false).2 = .diverge ∧
    (convertNormalToDdb n (F + 10) [.data 116 [114, 117]] ⟨⟨[], []⟩, []⟩ (List.replicate 8 0) (List.replicate 200 0)
      false false false).1.d.w.out = (List.replicate n "{\"BOOL\":true}\n".toUTF8.toList).flatten := by
  rw [show "{\"BOOL\":true}\n".toUTF8.toList = endlessRow by decide +kernel]
  have hp : U8Pool.new (List.replicate 200 0) 34 = .ok endlessNew := by decide +kernel
  have hs : scan n (F + 10) (ToDdb.callbacks (F + 10)) ⟨[], false⟩
      ⟨.new [.data 116 [114, 117]] (List.replicate 8 0), .new ⟨⟨[], []⟩, []⟩ false false false, endlessNew⟩ =
      ({ endlessSt (List.replicate n endlessRow).flatten with
          rj := if n = 0 then .new [.data 116 [114, 117]] (List.replicate 8 0) else endlessRJ }, .diverge) := by
    unfold scan
    simp only [show endlessNew.pushAssoc posLayout [Pos.top.byte] nameTop = (endlessPool, .ok ([Pos.top.byte], nameTop)) by decide +kernel]
    rcases n with _ | n
    · rfl
    · rw [mainLoop]
      have h := endless_turn F (.new [.data 116 [114, 117]] (List.replicate 8 0)) [] rfl
      simp only [endlessSt] at h
      simp only [Bool.false_eq_true, false_and, and_false, if_false, ToDdb.new, h]
      have h := endless_loop F n endlessRow true
      simp only [endlessSt] at h
      simp [h, List.replicate_succ, endlessSt]
  unfold convertNormalToDdb
  simp only [hp, hs]
  exact ⟨trivial, rfl⟩

end Verif.Ddb
