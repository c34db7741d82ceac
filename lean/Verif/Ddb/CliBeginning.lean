import Verif.Ddb.CliSound
import Verif.Ddb.BeginningDdb

/-!
# What the command line tool leaves in its output, whatever its exit status is (property C94)

C92 and C93 are about the writer of the conversion. Between it and the output channel is a `BufWriter`, which can lose the end of what was
written, and nothing else.
-/

namespace Verif.Ddb

open Verif.RJiter
open Verif.Scan

/-- What is in the channel behind a run: what the conversion has written, but for the last bytes, which were in the `BufWriter`. -/
theorem runs_out {turns fuel : Nat} {args : Args} {reader : Reader} {c c' : Chan} {r : Conv} (h : Runs turns fuel args reader c c' r) :
    ∃ d0 d, d0.w.out = [] ∧ convert turns fuel args reader d0 = (d, r) ∧
      ∃ lost, c'.out ++ lost = c.out ++ d.w.out ∧ lost.length ≤ 8192 ∧ (args.unbuffered = true → lost = []) := by
  obtain ⟨ws, plan, rs, d, h1, _, _, h2⟩ := h
  refine ⟨_, d, rfl, h1, ?_⟩
  cases hu : args.unbuffered
  · rw [if_neg (by rw [hu]; exact nofun)] at h2
    obtain ⟨b, h2, rfl⟩ := h2
    obtain ⟨h3, h4, _⟩ := feed_buf ws ⟨c, []⟩ (Nat.zero_le _)
    rw [h2] at h3 h4
    have h3 : b.chan.out ++ b.held = c.out ++ d.w.out := by simpa using h3
    obtain ⟨k1, k2, _⟩ := b.flushBuf_spec
    have hc : capacity = 8192 := rfl
    have hk : b.held.length ≤ capacity := h4
    cases r with
    | ok => exact ⟨b.flushBuf.1.held, k1.trans h3, by omega, nofun⟩
    | panic => exact ⟨b.flushBuf.1.held, k1.trans h3, by omega, nofun⟩
    | err e p => exact ⟨b.held, h3, by omega, nofun⟩
    | diverge => exact ⟨b.held, h3, by omega, nofun⟩
  · rw [if_pos hu] at h2
    obtain ⟨c1, h2, rfl⟩ := h2
    have h3 := (feed_chan ws c).1
    rw [h2] at h3
    exact ⟨[], by simpa using h3, Nat.zero_le _, fun _ => rfl⟩

mutual
theorem atoms_weaken {P Q : Bytes → Prop} (h : ∀ tok, P tok → Q tok) : ∀ v : Val, Atoms P v → Atoms Q v
  | .atom _, k => h _ k
  | .arr _ is, k => atoms_weaken_items h is k
  | .obj _ ms, k => atoms_weaken_members h ms k
theorem atoms_weaken_items {P Q : Bytes → Prop} (h : ∀ tok, P tok → Q tok) : ∀ is : Items, AtomsItems P is → AtomsItems Q is
  | .nil, _ => trivial
  | .cons _ v _ more, k => ⟨atoms_weaken h v k.1, atoms_weaken_items h more k.2⟩
theorem atoms_weaken_members {P Q : Bytes → Prop} (h : ∀ tok, P tok → Q tok) : ∀ ms : Members, AtomsMembers P ms → AtomsMembers Q ms
  | .nil, _ => trivial
  | .cons _ _ _ _ v _ more, k => ⟨atoms_weaken h v k.1, atoms_weaken_members h more k.2⟩
end

/-- There is no backslash, or all bytes are ASCII. -/
theorem harmless_look {reader : Reader} (hh : (∀ b ∈ reader.pending, b.toNat < 0x80) ∨ 92 ∉ reader.pending) : Harmless (.new reader lookBuffer) := by
  rcases hh with hh | hh
  · refine .inl ⟨fun b hb => ?_, hh⟩
    have hb : b ∈ lookBuffer := hb
    unfold lookBuffer at hb
    rw [(List.mem_replicate.1 hb).2]
    decide
  · exact .inr (by rw [rest_new]; exact hh)

/-- **C94, partial**, `ddb_convert from-ddb`. The input is a stream of items in DynamoDB JSON or the beginning of one, cut off anywhere, in any chunks;
reading and writing may fail. Whatever the exit status is, what the tool has added to its output is a beginning of these items as plain JSON. The
conditions `hm` and `ho` are those of C49; the full statement is without them and without `hh`. It is false: C49, `C92_half_escape`. -/
theorem C94_from_ddb_partial (turns F : Nat) (args : Args) (reader : Reader) (c c' : Chan) (r : Conv) (R : Room) (D : DDocs) (u tail : Bytes)
    (ha : args.toDdb = false) (hf : 2 * reader.size + 2 ≤ F) (ht : 2 * reader.pending.length + 2 ≤ turns)
    (hh : (∀ b ∈ reader.pending, b.toNat < 0x80) ∨ 92 ∉ reader.pending) (hr : reader.pending ++ u = Docs.text D.json tail) (hj : Docs.Json D.json tail)
    (hfit : Docs.Fit R [nameTop] D.json) (hm : ∀ x ∈ D, x.2.members.Names (· ≠ nameArray)) (ho : ∀ x ∈ D, x.2.members.Orderly) (hw : ∀ x ∈ D, x.2.Reads true)
    (run : Runs turns F args reader c c' r) : c'.out <+: c.out ++ DDocs.plain args.pretty D := by
  obtain ⟨d0, d, h0, h1, lost, h2, _⟩ := runs_out run
  unfold convert at h1
  rw [ha, if_neg nofun] at h1
  have := C92_output_partial turns F reader d0 lookBuffer nameBuffer args.pretty args.unbuffered true R D u tail (by rw [lookBuffer_length]; decide) hf ht
    (harmless_look hh) hr hj hfit hm ho hw
  rw [show (convertDdbToNormal turns F reader d0 lookBuffer nameBuffer args.pretty args.unbuffered true).1.d = d from (Prod.mk.inj h1).1, h0, List.nil_append] at this
  exact (List.prefix_append _ lost).trans (h2 ▸ (List.prefix_append_right_inj _).2 this)

/-- **C94, partial**, `ddb_convert to-ddb`. The input is a stream of JSON objects and arrays or the beginning of one that does not end in a digit,
in any chunks; writing may fail. Whatever the exit status is, what the tool has added to its output is a beginning of these documents in DynamoDB
JSON; if writing fails, it can be such a beginning and a line feed. For the conditions, and what is false without them, see C93. -/
theorem C94_to_ddb_partial (turns F : Nat) (args : Args) (reader : Reader) (c c' : Chan) (r : Conv) (R : Room) (ds : Docs) (u tail : Bytes)
    (ha : args.toDdb = true) (hf : 2 * reader.size + 2 ≤ F) (ht : 2 * reader.pending.length + 3 ≤ turns) (hcl : reader.Clean)
    (hh : (∀ b ∈ reader.pending, b.toNat < 0x80) ∨ 92 ∉ reader.pending) (hr : reader.pending ++ u = Docs.text ds tail) (hj : Docs.Json ds tail)
    (hfit : Docs.Fit R [nameTop] ds) (hb : ∀ d ∈ ds, ∀ tok, d.2 ≠ .atom tok) (hk : ∀ d ∈ ds, d.2.Keys Usual) (hs : ∀ d ∈ ds, Atoms Short d.2)
    (hcut : u = [] ∨ ∀ b, reader.pending.getLast? = some b → ¬ Digit b) (run : Runs turns F args reader c c' r) :
    (c'.out <+: c.out ++ typedDocs (!args.withoutItem) args.pretty ds ∨
      ∃ p, p <+: typedDocs (!args.withoutItem) args.pretty ds ∧ c'.out = c.out ++ (p ++ [10])) ∧
    (c.Sound → c.flushes = [] → c'.out <+: c.out ++ typedDocs (!args.withoutItem) args.pretty ds) := by
  have hd : ∀ d ∈ ds, Atoms (Within lookBuffer.length) d.2 := by
    intro d h
    rw [lookBuffer_length]
    exact atoms_weaken (fun tok h hn => Nat.le_trans (h hn) (by decide)) _ (hs d h)
  have key := C93_output_partial turns F reader lookBuffer nameBuffer [] args.pretty args.unbuffered (!args.withoutItem) R ds u tail
    (by rw [lookBuffer_length]; decide) hf ht hcl (harmless_look hh) hr hj hfit hb hk hs hd hcut
  simp only [List.nil_append] at key
  constructor
  · obtain ⟨d0, d, h0, h1, lost, h2, _⟩ := runs_out run
    unfold convert at h1
    rw [ha, if_pos rfl] at h1
    have := key.2 d0 h0
    rw [show (convertNormalToDdb turns F reader d0 lookBuffer nameBuffer args.pretty args.unbuffered (!args.withoutItem)).1.d = d from (Prod.mk.inj h1).1] at this
    rcases this with h | ⟨p, h3, h4⟩
    · exact .inl ((List.prefix_append _ lost).trans (h2 ▸ (List.prefix_append_right_inj _).2 h))
    · rcases List.eq_nil_or_concat lost with rfl | ⟨l, x, rfl⟩
      · exact .inr ⟨p, h3, by rw [← h4, ← h2, List.append_nil]⟩
      · left
        rw [h4, List.concat_eq_append, ← List.append_assoc, ← List.append_assoc] at h2
        have := List.append_inj_left' h2 rfl
        exact (List.prefix_append _ l).trans (this ▸ (List.prefix_append_right_inj _).2 h3)
  · intro hs hfl
    cases hu : args.unbuffered
    · obtain ⟨out, lost, k1, k2, _⟩ := C76_buffered_partial turns F args reader c c' r hu hs run
      rw [ideal_to ha, Prod.mk.injEq] at k1
      rw [k1.1] at key
      exact (List.prefix_append _ lost).trans (k2 ▸ (List.prefix_append_right_inj _).2 key.1)
    · obtain ⟨out, k1, k2⟩ := C76_unbuffered turns F args reader c c' r hu hs hfl run
      rw [ideal_to ha, Prod.mk.injEq] at k1
      rw [k1.1] at key
      exact k2 ▸ (List.prefix_append_right_inj _).2 key.1

/-! ## Examples -/

/-- The hypotheses of `C94_from_ddb_partial` as far as they are not among those of `C92_output_partial`: the beginning of the items, a read
error, and a channel that takes one byte with the first `write`. -/
example : 92 ∉ exCut.pending ∧ ∃ c' r, Runs 200 200 ⟨false, false, false, true⟩ exCut ⟨[], [.ok 0], []⟩ c' r ∧ exitStatus r = some 1 := by
  refine ⟨by decide +kernel, ?_⟩
  obtain ⟨c', h⟩ := runs_sound 200 200 ⟨false, false, false, true⟩ exCut ⟨[], [.ok 0], []⟩ ok_sound rfl
  exact ⟨c', _, h, by decide +kernel⟩

/-- The hypotheses of `C94_to_ddb_partial` as far as they are not among those of `C93_output_partial`. -/
example : 92 ∉ (exBegin 8).pending ∧ ∃ c' r, Runs 200 200 ⟨true, false, false, true⟩ (exBegin 8) ⟨[], [.ok 0], []⟩ c' r ∧ exitStatus r = some 1 := by
  refine ⟨by decide +kernel, ?_⟩
  obtain ⟨c', h⟩ := runs_sound 200 200 ⟨true, false, false, true⟩ (exBegin 8) ⟨[], [.ok 0], []⟩ ok_sound rfl
  exact ⟨c', _, h, by decide +kernel⟩

/-- **C94 is false** for an input that ends in a number: on `{"a":12`, `ddb_convert to-ddb --without-item --unbuffered` leaves `{"a":{"N":"12"}`, which is
not a beginning of the output for `{"a":123456789}`. The exit status is 1. -/
theorem C94_cut_number : ∃ (reader : Reader) (u : Bytes) (c' : Chan) (r : Conv), reader.Clean ∧ reader.pending ++ u = Docs.text exCount [32] ∧
    Docs.Json exCount [32] ∧ Runs 40 100 ⟨true, false, true, true⟩ reader ⟨[], [], []⟩ c' r ∧ exitStatus r = some 1 ∧
    c'.out = "{\"a\":{\"N\":\"12\"}".toUTF8.toList ∧ typedDocs false false exCount = "{\"a\":{\"N\":\"123456789\"}}\n".toUTF8.toList := by
  have hs : (⟨[], [], []⟩ : Chan).Sound := fun _ h => nomatch h
  obtain ⟨c', h⟩ := runs_sound 40 100 ⟨true, false, true, true⟩ [.data 123 [34, 97, 34, 58, 49, 50]] ⟨[], [], []⟩ hs rfl
  refine ⟨_, [51, 52, 53, 54, 55, 56, 57, 125, 32], c', _, by decide, by decide +kernel, exCount_json, h, by decide +kernel, ?_, by decide +kernel⟩
  obtain ⟨out, h1, h2⟩ := C76_unbuffered _ _ _ _ _ _ _ rfl hs rfl h
  rw [h2, List.nil_append, ← show (ideal 40 100 ⟨true, false, true, true⟩ [.data 123 [34, 97, 34, 58, 49, 50]]).1 = out by rw [h1]]
  decide +kernel

end Verif.Ddb
