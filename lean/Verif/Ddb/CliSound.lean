import Verif.Ddb.CliTrip
import Verif.Ddb.Halting

/-!
# What exit status 0 of the command line tool says about its input and its output (property C83)

C75 says that with exit status 0 the output of the conversion has reached the channel, C80 and C81 say what this output is.
-/

namespace Verif.Ddb

open Verif.RJiter
open Verif.Scan

theorem lookBuffer_length : lookBuffer.length = 65536 := by unfold lookBuffer; exact List.length_replicate

theorem usable_look (reader : Reader) (F : Nat) (hf : 2 * reader.size + 2 ≤ F) : Usable F (.new reader lookBuffer) :=
  usable_new _ _ _ (by rw [lookBuffer_length]; decide) hf

/-- The bytes `out` are sent to the channel `c`, which becomes `c'`. All of them arrive with `--unbuffered`, and if no `write` fails; otherwise
the last ones, which do not fill the buffer of the `BufWriter`, may be lost. -/
def Delivers (args : Args) (c c' : Chan) (out : Bytes) : Prop :=
  ∃ lost, c'.out ++ lost = c.out ++ out ∧ lost.length ≤ 8192 ∧ (args.unbuffered = true → lost = []) ∧ (c.Sound → lost = [])

/-- C75 in one piece. -/
theorem runs_delivers {turns fuel : Nat} {args : Args} {reader : Reader} {c c' : Chan} {r : Conv} (h : Runs turns fuel args reader c c' r)
    (he : exitStatus r = some 0) :
    ∃ out, ideal turns fuel { args with unbuffered := false } reader = (out, .ok) ∧ Delivers args c c' out := by
  have hi : (ideal turns fuel { args with unbuffered := false } reader).2 = .ok := by
    obtain ⟨ws, plan, rs, d, h1, _⟩ := id h
    obtain rfl := exit_zero he
    rw [convert_ok h1]
  refine ⟨(ideal turns fuel { args with unbuffered := false } reader).1, Prod.ext rfl hi, ?_⟩
  cases hu : args.unbuffered
  · obtain ⟨lost, h1, h2, h3⟩ := C75_buffered_partial turns fuel args reader c c' r hu h he
    refine ⟨lost, ?_, h2, nofun ∘ hu.symm.trans, h3⟩
    rw [show ({ args with unbuffered := false } : Args) = args by rw [← hu], h1]
  · have h1 := C75_unbuffered turns fuel args reader c c' r hu h he
    exact ⟨[], by rw [List.append_nil, h1], by decide, fun _ => rfl, fun _ => rfl⟩

theorem ideal_from {turns fuel : Nat} {args : Args} {reader : Reader} (ha : args.toDdb = false) :
    ideal turns fuel args reader = ((convertDdbToNormal turns fuel reader ⟨⟨[], []⟩, []⟩ lookBuffer nameBuffer args.pretty args.unbuffered true).1.d.w.out,
      (convertDdbToNormal turns fuel reader ⟨⟨[], []⟩, []⟩ lookBuffer nameBuffer args.pretty args.unbuffered true).2) := by
  unfold ideal convert
  rw [ha, if_neg nofun]

theorem ideal_to {turns fuel : Nat} {args : Args} {reader : Reader} (ha : args.toDdb = true) :
    ideal turns fuel args reader =
      ((convertNormalToDdb turns fuel reader ⟨⟨[], []⟩, []⟩ lookBuffer nameBuffer args.pretty args.unbuffered (!args.withoutItem)).1.d.w.out,
      (convertNormalToDdb turns fuel reader ⟨⟨[], []⟩, []⟩ lookBuffer nameBuffer args.pretty args.unbuffered (!args.withoutItem)).2) := by
  unfold ideal convert
  rw [ha, if_pos rfl]

/-- **C83, partial**, `ddb_convert from-ddb`. The input is a stream of items in DynamoDB JSON, in any chunks; reading and writing may fail. If the exit
status is 0, then the output of the tool is these items as plain JSON. The full statement is without the conditions `hn` and `ho`, those of C49, and
for an arbitrary input, which an exit status of 0 shows to be a stream of items. It is false: C49, C51, C65. -/
theorem C83_from_ddb_partial (turns F : Nat) (args : Args) (reader : Reader) (c c' : Chan) (r : Conv) (D : DDocs) (tail : Bytes)
    (ha : args.toDdb = false) (hf : 2 * reader.size + 2 ≤ F) (hr : reader.pending = Docs.text D.json tail) (hj : Docs.Json D.json tail)
    (hn : ∀ x ∈ D, x.2.members.Names (· ≠ nameArray)) (ho : ∀ x ∈ D, x.2.members.Orderly) (hw : ∀ x ∈ D, x.2.Reads true)
    (run : Runs turns F args reader c c' r) (he : exitStatus r = some 0) :
    Delivers args c c' (DDocs.plain args.pretty D) := by
  obtain ⟨out, h1, h2⟩ := runs_delivers run he
  rw [ideal_from (args := { args with unbuffered := false }) ha, Prod.mk.injEq] at h1
  have := C80_output_partial turns F reader ⟨⟨[], []⟩, []⟩ lookBuffer nameBuffer args.pretty false true D tail (usable_look _ _ hf) hr hj hn ho hw h1.2
  rw [h1.1] at this
  rw [this] at h2
  exact h2

/-- **C83, partial**, `ddb_convert to-ddb`. The input is a stream of JSON documents, in any chunks; writing may fail. If the exit status is 0, then the
output of the tool is these documents with their types. The conditions `hs`, `hk`, `hn` and `hc` are those of C81; the full statement is without
them and for a reader that fails. It is false: C47, `C81_long_number`, `C81_faulty`. -/
theorem C83_to_ddb_partial (turns F : Nat) (args : Args) (reader : Reader) (c c' : Chan) (r : Conv) (ds : Docs) (tail : Bytes)
    (ha : args.toDdb = true) (hf : 2 * reader.size + 2 ≤ F) (hcl : reader.Clean) (hr : reader.pending = Docs.text ds tail) (hj : Docs.Json ds tail)
    (hs : ∀ x ∈ ds, x.2.Short 65536) (hk : ∀ x ∈ ds, x.2.Keys Usual) (hn : ∀ x ∈ ds, Atoms Short x.2) (hc : Calm ds)
    (run : Runs turns F args reader c c' r) (he : exitStatus r = some 0) :
    Delivers args c c' (typedDocs (!args.withoutItem) args.pretty ds) := by
  obtain ⟨out, h1, h2⟩ := runs_delivers run he
  rw [ideal_to (args := { args with unbuffered := false }) ha, Prod.mk.injEq] at h1
  have := C81_output_partial turns F reader ⟨⟨[], []⟩, []⟩ lookBuffer nameBuffer args.pretty false (!args.withoutItem) ds tail (usable_look _ _ hf) hcl hr hj
    (by rw [lookBuffer_length]; exact hs) hk hn hc h1.2
  rw [h1.1] at this
  rw [this] at h2
  exact h2

/-- **C83, partial**: whatever the documents are, the tool writes the same for them however they are cut into chunks, with and without
`--unbuffered`, if both runs exit with 0. `hs`: numbers at the top level fit into the buffer of 64 kB; see `C81_long_number`. -/
theorem C83_agree_partial (turns turns' F F' : Nat) (args : Args) (u : Bool) (reader reader' : Reader) (c c' d d' : Chan) (r r' : Conv) (ds : Docs)
    (tail : Bytes) (hf : 2 * reader.size + 2 ≤ F) (hf' : 2 * reader'.size + 2 ≤ F') (hcl : args.toDdb = true → reader.Clean ∧ reader'.Clean)
    (hr : reader.pending = Docs.text ds tail) (hr' : reader'.pending = Docs.text ds tail) (hj : Docs.Json ds tail)
    (hs : args.toDdb = true → ∀ x ∈ ds, x.2.Short 65536)
    (run : Runs turns F args reader c c' r) (he : exitStatus r = some 0)
    (run' : Runs turns' F' { args with unbuffered := u } reader' d d' r') (he' : exitStatus r' = some 0) :
    ∃ out, Delivers args c c' out ∧ Delivers { args with unbuffered := u } d d' out := by
  obtain ⟨out, h1, h2⟩ := runs_delivers run he
  obtain ⟨out', k1, k2⟩ := runs_delivers run' he'
  refine ⟨out, h2, ?_⟩
  simp only at k1
  rcases Bool.eq_false_or_eq_true args.toDdb with ha | ha
  rotate_left
  · rw [ideal_from (args := { args with unbuffered := false }) ha, Prod.mk.injEq] at h1 k1
    have := C80_agree_partial turns turns' F F' reader reader' ⟨⟨[], []⟩, []⟩ ⟨⟨[], []⟩, []⟩ lookBuffer lookBuffer nameBuffer nameBuffer args.pretty false false true
      ds tail (usable_look _ _ hf) (usable_look _ _ hf') hr hr' rfl hj h1.2 k1.2
    rw [h1.1, k1.1] at this
    rw [this]
    exact k2
  · rw [ideal_to (args := { args with unbuffered := false }) ha, Prod.mk.injEq] at h1 k1
    have := C81_agree_partial turns turns' F F' reader reader' ⟨⟨[], []⟩, []⟩ ⟨⟨[], []⟩, []⟩ lookBuffer lookBuffer nameBuffer nameBuffer args.pretty false false
      (!args.withoutItem) ds tail (usable_look _ _ hf) (usable_look _ _ hf') (hcl ha).1 (hcl ha).2 hr hr' rfl hj
      (by rw [lookBuffer_length]; exact hs ha) (by rw [lookBuffer_length]; exact hs ha) h1.2 k1.2
    rw [h1.1, k1.1] at this
    rw [this]
    exact k2

/-- **C83**: `ddb_convert from-ddb` exits, with status 0 or 1, whatever is in the input and whatever fails. The number of turns is bounded by the
length of the input. This is about a build without overflow checks, see `C54_underflow`. -/
theorem C83_from_ddb_exits (turns F : Nat) (args : Args) (reader : Reader) (c c' : Chan) (r : Conv) (ha : args.toDdb = false)
    (hf : 2 * reader.size + 2 ≤ F) (ht : 2 * reader.pending.length + 2 ≤ turns) (run : Runs turns F args reader c c' r) :
    exitStatus r = some 0 ∨ exitStatus r = some 1 := by
  obtain ⟨ws, plan, rs, d, h1, _⟩ := run
  have := C58_returns_partial F reader ⟨⟨[], plan⟩, if args.unbuffered then c.flushes else []⟩ lookBuffer nameBuffer args.pretty args.unbuffered true
    (by rw [lookBuffer_length]; decide) hf turns ht
  unfold convert at h1
  rw [ha, if_neg nofun] at h1
  rw [show (convertDdbToNormal turns F reader ⟨⟨[], plan⟩, if args.unbuffered then c.flushes else []⟩ lookBuffer nameBuffer args.pretty args.unbuffered
    true).2 = r from (Prod.mk.inj h1).2] at this
  rcases this with rfl | ⟨e, p, rfl⟩
  · exact .inl rfl
  · exact .inr rfl

/-- **C83, partial**: `ddb_convert to-ddb` exits on JSON, with status 0 or 1. The full statement is for any input: it is false, `C83_hangs`. For
`Harmless` (there is no backslash, or all bytes are ASCII) see `C82_json_endless`. -/
theorem C83_to_ddb_exits_partial (turns F : Nat) (args : Args) (reader : Reader) (c c' : Chan) (r : Conv) (ds : Docs) (tail : Bytes)
    (ha : args.toDdb = true) (hf : 2 * reader.size + 2 ≤ F) (hcl : reader.Clean) (hh : (∀ b ∈ reader.pending, b.toNat < 0x80) ∨ 92 ∉ reader.pending)
    (hr : reader.pending = Docs.text ds tail) (hj : Docs.Json ds tail) (hs : ∀ x ∈ ds, x.2.Short 65536)
    (ht : 2 * reader.pending.length + 3 ≤ turns) (run : Runs turns F args reader c c' r) :
    exitStatus r = some 0 ∨ exitStatus r = some 1 := by
  obtain ⟨ws, plan, rs, d, h1, _⟩ := run
  have := C82_json_returns_partial F reader ⟨⟨[], plan⟩, if args.unbuffered then c.flushes else []⟩ lookBuffer nameBuffer args.pretty args.unbuffered
    (!args.withoutItem) (usable_look _ _ hf) hcl (by
      rcases hh with hh | hh
      · refine .inl ⟨fun b hb => ?_, hh⟩
        have hb : b ∈ lookBuffer := hb
        unfold lookBuffer at hb
        rw [(List.mem_replicate.1 hb).2]
        decide
      · exact .inr (by rw [rest_new]; exact hh)) ds tail hr hj
    (by rw [lookBuffer_length]; exact hs) turns ht
  unfold convert at h1
  rw [ha, if_pos rfl] at h1
  rw [show (convertNormalToDdb turns F reader ⟨⟨[], plan⟩, if args.unbuffered then c.flushes else []⟩ lookBuffer nameBuffer args.pretty args.unbuffered
    (!args.withoutItem)).2 = r from (Prod.mk.inj h1).2] at this
  rcases this with rfl | ⟨e, p, rfl⟩
  · exact .inl rfl
  · exact .inr rfl

/-- **C83 is false** for `ddb_convert to-ddb` on an arbitrary input: behind any documents that meet the rules, on something that begins like `true`,
`false` or `null` and is not it, the tool does not exit while its output is accepted. -/
theorem C83_hangs (M : Mode) (L F : Nat) (args : Args) (reader : Reader) (c c' : Chan) (r : Conv) (ds : Docs) (ws x : Bytes) (ha : args.toDdb = true)
    (hi : Inv M L F (.new reader lookBuffer)) (hr : reader.pending = Docs.text ds (ws ++ x)) (hm : ToDdb.Precede (rules M L) ds (ws ++ x))
    (hws : Spaces ws) (hx : Wordless x) (hf : Docs.Fit ⟨1912, 34, 34⟩ [nameTop] ds) (turns : Nat) (hc : c.Sound) (hc' : c.flushes = [])
    (run : Runs turns F args reader c c' r) : exitStatus r = none := by
  have h1 : (ideal turns F args reader).2 = .diverge := by
    rw [ideal_to ha]
    exact C82_endless M L F reader lookBuffer nameBuffer [] args.pretty args.unbuffered (!args.withoutItem) ds ws x hi
      (by rw [nameBuffer_length]; decide) hr hm hws hx (by rw [nameBuffer_length]; exact hf) turns
  obtain ⟨out, h2⟩ : ∃ out, ideal turns F args reader = (out, r) := by
    cases hu : args.unbuffered
    · obtain ⟨out, _, h2, _⟩ := C76_buffered_partial turns F args reader c c' r hu hc run
      exact ⟨out, h2⟩
    · obtain ⟨out, h2, _⟩ := C76_unbuffered turns F args reader c c' r hu hc hc' run
      exact ⟨out, h2⟩
  rw [h2] at h1
  obtain rfl : r = .diverge := h1
  rfl

/-! ## Examples -/

/-- The text in two chunks, the second from the byte with the number `n`. -/
def inTwo (n : Nat) (text : Bytes) : Reader := whole (text.take n) ++ whole (text.drop n)

theorem ok_sound : (⟨[], [.ok 0], []⟩ : Chan).Sound := by
  intro p hp
  simp only [List.mem_cons, List.not_mem_nil, or_false] at hp
  exact ⟨0, hp⟩

/-- The hypotheses of `C83_from_ddb_partial`, as far as they are not among those of `C80_output_partial`: the items are cut in the middle of a string. -/
example : 2 * (inTwo 10 (Docs.text exItems.json [32])).size + 2 ≤ 200 ∧ (inTwo 10 (Docs.text exItems.json [32])).pending = Docs.text exItems.json [32] ∧
    ∃ c' r, Runs 200 200 ⟨false, false, false, true⟩ (inTwo 10 (Docs.text exItems.json [32])) ⟨[], [.ok 0], []⟩ c' r ∧ exitStatus r = some 0 := by
  refine ⟨by decide +kernel, by decide +kernel, ?_⟩
  obtain ⟨c', h⟩ := runs_sound 200 200 ⟨false, false, false, true⟩ (inTwo 10 (Docs.text exItems.json [32])) ⟨[], [.ok 0], []⟩ ok_sound rfl
  exact ⟨c', _, h, by decide +kernel⟩

/-- The hypotheses of `C83_to_ddb_partial` and `C83_to_ddb_exits_partial`, as far as they are not among those of `C81_output_partial`; together with
the same stream in one chunk, those of `C83_agree_partial`. -/
example : 2 * (inTwo 9 (Docs.text exStream [32])).size + 2 ≤ 200 ∧ (inTwo 9 (Docs.text exStream [32])).pending = Docs.text exStream [32] ∧
    (inTwo 9 (Docs.text exStream [32])).Clean ∧ 92 ∉ (inTwo 9 (Docs.text exStream [32])).pending ∧ (∀ x ∈ exStream, x.2.Short 65536) ∧
    (∃ c' r, Runs 100 200 ⟨true, false, false, false⟩ (inTwo 9 (Docs.text exStream [32])) ⟨[], [.ok 0], []⟩ c' r ∧ exitStatus r = some 0) ∧
    (whole (Docs.text exStream [32])).Clean ∧
    ∃ c' r, Runs 100 200 ⟨true, false, false, true⟩ (whole (Docs.text exStream [32])) ⟨[], [.ok 0], []⟩ c' r ∧ exitStatus r = some 0 := by
  refine ⟨by decide +kernel, by decide +kernel, by simp [inTwo, whole, exStream, Docs.text, Val.text, Members.text, Items.text, Items.textMore,
    Members.textMore, Reader.Clean], by decide +kernel, exStream_short _ (by decide), ?_, by simp [whole, exStream, Docs.text, Val.text, Reader.Clean], ?_⟩
  · obtain ⟨c', h⟩ := runs_sound 100 200 ⟨true, false, false, false⟩ (inTwo 9 (Docs.text exStream [32])) ⟨[], [.ok 0], []⟩ ok_sound rfl
    exact ⟨c', _, h, by decide +kernel⟩
  · obtain ⟨c', h⟩ := runs_sound 100 200 ⟨true, false, false, true⟩ (whole (Docs.text exStream [32])) ⟨[], [.ok 0], []⟩ ok_sound rfl
    exact ⟨c', _, h, by decide +kernel⟩

/-- The hypotheses of `C83_from_ddb_exits` with an input that is not JSON and a read error. -/
example : 2 * Reader.size [.data 123 [93], .fail 7] + 2 ≤ 100 ∧ 2 * (Reader.pending [.data 123 [93], .fail 7]).length + 2 ≤ 10 ∧
    ∃ c' r, Runs 10 100 ⟨false, false, false, true⟩ [.data 123 [93], .fail 7] ⟨[], [.ok 0], []⟩ c' r :=
  ⟨by decide, by decide, (runs_sound 10 100 ⟨false, false, false, true⟩ [.data 123 [93], .fail 7] ⟨[], [.ok 0], []⟩ ok_sound rfl).imp fun _ h => ⟨_, h⟩⟩

/-- The hypotheses of `C83_hangs`, as far as they are not among those of `C82_endless`. -/
example : Inv wholeMode 8 200 (.new exFals lookBuffer) ∧ Docs.Fit ⟨1912, 34, 34⟩ [nameTop] exStream ∧
    ∃ c' r, Runs 1000 200 ⟨true, false, false, true⟩ exFals ⟨[], [.ok 0], []⟩ c' r := by
  refine ⟨whole_new _ _ 8 200 (by simp [exFals, whole, exStream, Docs.text, Val.text, Reader.OneChunk]) ?_ (by rw [lookBuffer_length]; decide)
    (by rw [lookBuffer_length]; decide) (by decide), ⟨trivial, ⟨by decide, trivial, trivial⟩, ⟨by decide, trivial, trivial⟩, trivial, trivial, trivial⟩,
    (runs_sound 1000 200 ⟨true, false, false, true⟩ exFals ⟨[], [.ok 0], []⟩ ok_sound rfl).imp fun _ h => ⟨_, h⟩⟩
  rw [lookBuffer_length]
  decide +kernel

end Verif.Ddb
