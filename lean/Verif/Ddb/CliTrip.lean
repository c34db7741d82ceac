import Verif.Ddb.CliProps
import Verif.Ddb.RoundTrip

/-!
# `ddb_convert to-ddb | ddb_convert from-ddb` (property C77)
-/

namespace Verif.Ddb

open Verif.RJiter
open Verif.Scan (Usual Val Docs nameTop Mode Inv rules Items Members wholeMode whole_new)

theorem nameBuffer_length : nameBuffer.length = 2048 := by unfold nameBuffer; exact List.length_replicate

/-- What reaches a channel that does not fail if the conversion succeeds. -/
theorem runs_ok {turns fuel : Nat} {args : Args} {reader : Reader} {c c' : Chan} {r : Conv} (hs : c.Sound) (hf : c.flushes = [])
    (h : Runs turns fuel args reader c c' r) (hi : (ideal turns fuel args reader).2 = .ok) :
    exitStatus r = some 0 ∧ c'.out = c.out ++ (ideal turns fuel args reader).1 := by
  cases hu : args.unbuffered
  · obtain ⟨out, lost, h1, h2, _, h3⟩ := C76_buffered_partial turns fuel args reader c c' r hu hs h
    rw [h1] at hi ⊢
    obtain rfl : r = .ok := hi
    rw [h3 rfl, List.append_nil] at h2
    exact ⟨rfl, h2⟩
  · obtain ⟨out, h1, h2⟩ := C76_unbuffered turns fuel args reader c c' r hu hs hf h
    rw [h1] at hi ⊢
    obtain rfl : r = .ok := hi
    exact ⟨rfl, h2⟩

/-- Property C77. The tool converts a stream of JSON objects to DynamoDB JSON, with any flags; a second call converts what has reached the
channel of the first back, with any flags. Then both exit with status 0, and the second has written the same documents without space between
tokens, each followed by a newline; indented, it has written documents that differ from them only by space. The channels may accept the
bytes in any portions. The names on a path take at most 1696 bytes.

The full statement is without the conditions `hk`, `ha`, those of C47, and `hw`. It is false: `C47_long_number`, `C47_array_key`,
`C52_item_key`. -/
theorem C77_pipe_partial (M : Mode) (L F : Nat) (reader : Reader) (args : Args) (h1 : args.toDdb = true) (ds : Docs) (tail : Bytes)
    (hi : Inv M L F (.new reader lookBuffer)) (hr : reader.pending = Docs.text ds tail) (hm : Docs.Meets (rules M L) ds tail)
    (hf : Docs.Fit ⟨1696, 34, 34⟩ [nameTop] ds) (hk : ∀ d ∈ ds, d.2.Keys Usual) (ha : ∀ d ∈ ds, Atoms Short d.2) (ho : Objects ds) (turns : Nat)
    (ht : ds.length + reader.pending.length + 1 ≤ turns) (c c' : Chan) (r : Conv) (hc : c.Sound) (hc' : c.flushes = []) (hc0 : c.out = [])
    (run : Runs turns F args reader c c' r)
    (M2 : Mode) (L2 F2 : Nat) (A : Allows args.pretty M L (rules M2 L2)) (reader2 : Reader) (args2 : Args) (h2 : args2.toDdb = false)
    (hw : args.withoutItem = true → ∀ d ∈ ds, d.2.Fields (· ≠ [73, 116, 101, 109])) (hi2 : Inv M2 L2 F2 (.new reader2 lookBuffer))
    (hr2 : reader2.pending = c'.out) (turns2 : Nat) (ht2 : ds.length + reader2.pending.length + 1 ≤ turns2) (d d' : Chan) (r2 : Conv)
    (hd : d.Sound) (hd' : d.flushes = []) (hd0 : d.out = []) (run2 : Runs turns2 F2 args2 reader2 d d' r2) :
    exitStatus r = some 0 ∧ exitStatus r2 = some 0 ∧
    ∃ ws : List Val, d'.out = lines ws ∧ ws.map bare = ds.map (fun d => bare d.2) ∧ (args2.pretty = false → ws = ds.map fun d => bare d.2) := by
  have hid : ideal turns F args reader = ((convertNormalToDdb turns F reader ⟨⟨[], []⟩, []⟩ lookBuffer nameBuffer args.pretty args.unbuffered
      (!args.withoutItem)).1.d.w.out, (convertNormalToDdb turns F reader ⟨⟨[], []⟩, []⟩ lookBuffer nameBuffer args.pretty args.unbuffered
      (!args.withoutItem)).2) := by
    unfold ideal convert
    rw [if_pos h1]
  have hid2 : ideal turns2 F2 args2 reader2 = ((convertDdbToNormal turns2 F2 reader2 ⟨⟨[], []⟩, []⟩ lookBuffer nameBuffer args2.pretty
      args2.unbuffered true).1.d.w.out, (convertDdbToNormal turns2 F2 reader2 ⟨⟨[], []⟩, []⟩ lookBuffer nameBuffer args2.pretty
      args2.unbuffered true).2) := by
    unfold ideal convert
    rw [if_neg (by rw [h2]; exact nofun)]
  have hwide : Docs.Fit ⟨nameBuffer.length - 136, 34, 34⟩ [nameTop] ds :=
    fitDocs_wider (R := ⟨1696, 34, 34⟩) ⟨by rw [nameBuffer_length]; decide, Nat.le_refl 34, Nat.le_refl 34⟩ _ _ hf
  have hok := (C47_output_partial M L F reader lookBuffer nameBuffer [] args.pretty args.unbuffered (!args.withoutItem) ds tail hi
    (by rw [nameBuffer_length]; decide) hr hm hwide hk ha (objects_calm ho) turns ht).1
  obtain ⟨e1, e2⟩ := runs_ok hc hc' run (by rw [hid]; exact hok)
  rw [hc0, List.nil_append, hid] at e2
  obtain ⟨t1, ws, t2, t3, t4⟩ := C52_round_trip_partial M L F reader lookBuffer nameBuffer args.pretty args.unbuffered (!args.withoutItem) ds tail 1696
    hi (by decide) (by decide) (by rw [nameBuffer_length]; decide) hr hm hf hk ha ho turns ht M2 L2 F2 A reader2 lookBuffer nameBuffer args2.pretty
    args2.unbuffered true (fun _ => rfl) (fun h _ => hw (by revert h; cases args.withoutItem <;> decide)) hi2 (by rw [nameBuffer_length]; decide)
    (by rw [hr2, e2]) turns2 ht2
  obtain ⟨e3, e4⟩ := runs_ok hd hd' run2 (by rw [hid2]; exact t1)
  rw [hd0, List.nil_append, hid2] at e4
  exact ⟨e1, e3, ws, by rw [e4]; exact t2, t3, t4⟩

/-- The hypotheses of `C77_pipe_partial` on the stream `exTrip`, as far as they are not among those of `C52_round_trip_partial`. -/
example : Inv wholeMode 20 200 (.new (whole (Docs.text exTrip [])) lookBuffer) ∧ Docs.Fit ⟨1696, 34, 34⟩ [nameTop] exTrip ∧
    (⟨[], [.ok 0], []⟩ : Chan).Sound ∧
    ∃ c' r, Runs 40 200 ⟨true, false, false, false⟩ (whole (Docs.text exTrip [])) ⟨[], [.ok 0], []⟩ c' r := by
  have hs : (⟨[], [.ok 0], []⟩ : Chan).Sound := by
    intro p hp
    simp only [List.mem_cons, List.not_mem_nil, or_false] at hp
    exact ⟨0, hp⟩
  have hl : lookBuffer.length = 65536 := by
    unfold lookBuffer
    exact List.length_replicate
  refine ⟨whole_new _ _ 20 200 (by simp [whole, exTrip, exSpec, Docs.text, Val.text, Reader.OneChunk]) ?_ (by rw [hl]; decide)
    (by rw [hl]; decide) (by decide +kernel), ?_, hs, ?_⟩
  · rw [hl, show (whole (Docs.text exTrip [])).pending.length = 21 by decide +kernel]
    decide
  · simp only [exTrip, exSpec, Docs.Fit, Val.Fit, Items.Fit, Members.Fit]
    decide
  · obtain ⟨c', h⟩ := runs_sound 40 200 ⟨true, false, false, false⟩ (whole (Docs.text exTrip [])) ⟨[], [.ok 0], []⟩ hs rfl
    exact ⟨c', _, h⟩

end Verif.Ddb
