import Verif.Scan.LateProps
import Verif.Ddb.Late
import Verif.Ddb.LateDdb
import Verif.Ddb.CliSound

/-!
# Property C97: nothing is held back (the converters)
-/

namespace Verif.Ddb

open Verif.RJiter
open Verif.Scan

/-- **C97, partial.** Full statement: for every input; it is false for some inputs that end with a digit, see `C97_to_ddb_digit`. What
`convert_ddb_to_normal` has written and flushed when it finds the end of the input, it has written and flushed before it asks for more: with a reader
that fails there, the destination is the same. -/
theorem C97_to_normal_partial (turns fuel k : Nat) (reader : Reader) (d : Dest) (rjiterBuffer contextBuffer : Bytes)
    (pretty unbuffered asWrapper : Bool) (h8 : 8 ≤ rjiterBuffer.length) (hf : 2 * reader.size + 2 ≤ fuel) (hd : NoDigit reader) :
    (convertDdbToNormal turns fuel (reader ++ [.fail k]) d rjiterBuffer contextBuffer pretty unbuffered asWrapper).1.d =
      (convertDdbToNormal turns fuel reader d rjiterBuffer contextBuffer pretty unbuffered asWrapper).1.d := by
  unfold convertDdbToNormal
  rcases U8Pool.new contextBuffer 68 with pool | _ | _
  · have h := scan_both (ToNormal.patient k fuel) (opt := ⟨[], false⟩) rfl turns
      (st := ⟨.new reader rjiterBuffer, .new d pretty unbuffered asWrapper, pool⟩) (primed_new h8 hf hd)
    rw [show (St.late k ⟨.new reader rjiterBuffer, .new d pretty unbuffered asWrapper, pool⟩ : St ToNormal) =
      ⟨.new (reader ++ [.fail k]) rjiterBuffer, .new d pretty unbuffered asWrapper, pool⟩ from rfl] at h
    simp only
    generalize Scan.scan turns fuel (ToNormal.callbacks fuel) ⟨[], false⟩
      ⟨.new reader rjiterBuffer, .new d pretty unbuffered asWrapper, pool⟩ = x at h ⊢
    generalize Scan.scan turns fuel (ToNormal.callbacks fuel) ⟨[], false⟩
      ⟨.new (reader ++ [.fail k]) rjiterBuffer, .new d pretty unbuffered asWrapper, pool⟩ = y at h ⊢
    rcases x with ⟨st1, r1⟩
    rcases y with ⟨st2, r2⟩
    have h1 : st1.baton.d = st2.baton.d := h.1
    cases r1 <;> cases r2 <;> exact h1.symm
  · rfl
  · rfl

/-- **C97, partial** (see above), for `convert_normal_to_ddb`. -/
theorem C97_to_ddb_partial (turns fuel k : Nat) (reader : Reader) (d : Dest) (rjiterBuffer contextBuffer : Bytes)
    (pretty unbuffered withItem : Bool) (h8 : 8 ≤ rjiterBuffer.length) (hf : 2 * reader.size + 2 ≤ fuel) (hd : NoDigit reader) :
    (convertNormalToDdb turns fuel (reader ++ [.fail k]) d rjiterBuffer contextBuffer pretty unbuffered withItem).1.d =
      (convertNormalToDdb turns fuel reader d rjiterBuffer contextBuffer pretty unbuffered withItem).1.d := by
  unfold convertNormalToDdb
  rcases U8Pool.new contextBuffer 34 with pool | _ | _
  · have h := scan_both (ToDdb.patient k fuel) (opt := ⟨[], false⟩) rfl turns
      (st := ⟨.new reader rjiterBuffer, .new d withItem pretty unbuffered, pool⟩) (primed_new h8 hf hd)
    rw [show (St.late k ⟨.new reader rjiterBuffer, .new d withItem pretty unbuffered, pool⟩ : St ToDdb) =
      ⟨.new (reader ++ [.fail k]) rjiterBuffer, .new d withItem pretty unbuffered, pool⟩ from rfl] at h
    simp only
    generalize Scan.scan turns fuel (ToDdb.callbacks fuel) ⟨[], false⟩
      ⟨.new reader rjiterBuffer, .new d withItem pretty unbuffered, pool⟩ = x at h ⊢
    generalize Scan.scan turns fuel (ToDdb.callbacks fuel) ⟨[], false⟩
      ⟨.new (reader ++ [.fail k]) rjiterBuffer, .new d withItem pretty unbuffered, pool⟩ = y at h ⊢
    rcases x with ⟨st1, r1⟩
    rcases y with ⟨st2, r2⟩
    have h1 : st1.baton = st2.baton := h.1
    have h1 := congrArg ToDdb.d h1
    cases r1 <;> cases r2 <;> exact h1.symm
  · rfl
  · rfl

/-- **C97, partial** (see above), for the conversion that `ddb_convert` runs, in both directions and with all options. -/
theorem C97_convert_partial (turns fuel k : Nat) (args : Args) (reader : Reader) (d : Dest) (hf : 2 * reader.size + 2 ≤ fuel) (hd : NoDigit reader) :
    (convert turns fuel args (reader ++ [.fail k]) d).1 = (convert turns fuel args reader d).1 := by
  have h8 : 8 ≤ lookBuffer.length := by rw [lookBuffer_length]; decide
  unfold convert
  split
  · exact C97_to_ddb_partial turns fuel k reader d _ _ _ _ _ h8 hf hd
  · exact C97_to_normal_partial turns fuel k reader d _ _ _ _ _ h8 hf hd

/-- **C97, partial**, for complete documents that have arrived: all that `convert_normal_to_ddb` has to write for them is written before it asks for
more. The hypotheses are those of C47. -/
theorem C97_to_ddb_docs_partial (M : Mode) (L F k : Nat) (reader : Reader) (rb cb : Bytes) (out : Bytes) (pretty unbuffered item : Bool) (ds : Docs)
    (tail : Bytes) (hi : Inv M L F (.new reader rb)) (hcb : 141 ≤ cb.length) (hr : reader.pending = Docs.text ds tail)
    (hm : Docs.Meets (rules M L) ds tail) (hf : Docs.Fit ⟨cb.length - 136, 34, 34⟩ [nameTop] ds) (hk : ∀ d ∈ ds, d.2.Keys Usual)
    (ha : ∀ d ∈ ds, Atoms Short d.2) (hc : Calm ds) (hd : NoDigit reader) (turns : Nat) (ht : ds.length + reader.pending.length + 1 ≤ turns) :
    (convertNormalToDdb turns F (reader ++ [.fail k]) ⟨⟨out, []⟩, []⟩ rb cb pretty unbuffered item).1.d.w.out = out ++ typedDocs item pretty ds := by
  rw [C97_to_ddb_partial turns F k reader _ rb cb pretty unbuffered item hi.eight hi.fuel hd]
  exact (C47_output_partial M L F reader rb cb out pretty unbuffered item ds tail hi hcb hr hm hf hk ha hc turns ht).2

/-- **C97, partial**, for complete items that have arrived: all that `convert_ddb_to_normal` has to write for them is written before it asks for
more. The hypotheses are those of C49. -/
theorem C97_to_normal_docs_partial (M : Mode) (L F k : Nat) (reader : Reader) (rb cb : Bytes) (out : Bytes) (pretty unbuffered asWrapper : Bool)
    (ds : DDocs) (tail : Bytes) (hi : Inv M L F (.new reader rb)) (hcb : 277 ≤ cb.length) (hr : reader.pending = Docs.text ds.json tail)
    (hm : Docs.Meets (rules M L) ds.json tail) (hf : Docs.Fit ⟨cb.length - 272, 68, 68⟩ [nameTop] ds.json)
    (hn : ∀ d ∈ ds, d.2.members.Names (· ≠ nameArray)) (ho : ∀ d ∈ ds, d.2.members.Orderly) (hw : ∀ d ∈ ds, d.2.Reads asWrapper)
    (hd : NoDigit reader) (turns : Nat) (ht : ds.length + reader.pending.length + 1 ≤ turns) :
    (convertDdbToNormal turns F (reader ++ [.fail k]) ⟨⟨out, []⟩, []⟩ rb cb pretty unbuffered asWrapper).1.d.w.out = out ++ DDocs.plain pretty ds := by
  rw [C97_to_normal_partial turns F k reader _ rb cb pretty unbuffered asWrapper hi.eight hi.fuel hd]
  exact (C49_output_partial M L F reader rb cb out pretty unbuffered asWrapper ds tail hi hcb hr hm hf hn ho hw turns ht).2

/-- The streams of the examples for C47 and C49 end with a space. -/
example : NoDigit (whole (Docs.text exStream [32])) ∧ NoDigit (whole (Docs.text exItems.json [32])) := by
  have h1 : (whole (Docs.text exStream [32])).pending.getLast? = some 32 := by decide +kernel
  have h2 : (whole (Docs.text exItems.json [32])).pending.getLast? = some 32 := by decide +kernel
  refine ⟨fun c hc h => ?_, fun c hc h => ?_⟩
  · rw [h1] at hc; injection hc with hc; subst hc; exact absurd h.1 (by decide)
  · rw [h2] at hc; injection hc with hc; subst hc; exact absurd h.1 (by decide)

/-- A complete line, and half of the next one. -/
def exLines : Bytes := "{\"Item\":{\"a\":{\"N\":\"7\"}}}\n{\"Item\":{\"b\":{\"S\":\"x".toUTF8.toList

example : 2 * (piece exLines).size + 2 ≤ 200 ∧ NoDigit (piece exLines) := by
  refine ⟨by decide +kernel, ?_⟩
  intro c hc
  have : (piece exLines).pending.getLast? = some 120 := by decide +kernel
  rw [this] at hc
  injection hc with hc
  subst hc
  intro h
  exact absurd h.2 (by decide)

/-- What is written there: the first line, and what is known of the second one. -/
example : (convertDdbToNormal 60 200 (piece exLines ++ [.fail 3]) ⟨⟨[], []⟩, []⟩ (List.replicate 60 0) (List.replicate 600 0) false false true).1.d.w.out =
    "{\"a\":7}\n{\"b\":\"".toUTF8.toList := by decide +kernel

/-- **C97, the false part.** `[1`: `convert_normal_to_ddb` writes the number at the end of the input, but not if the reader fails there. -/
theorem C97_to_ddb_digit : ∃ (reader : Reader) (buf : Bytes), reader.Clean ∧ 40 ≤ buf.length ∧ 2 * reader.size + 2 ≤ 100 ∧
    reader.pending = "[1".toUTF8.toList ∧
    (convertNormalToDdb 40 100 reader ⟨⟨[], []⟩, []⟩ buf (List.replicate 600 0) false false true).1.d.w.out = "{\"L\":[{\"N\":\"1\"}".toUTF8.toList ∧
    (convertNormalToDdb 40 100 (reader ++ [.fail 0]) ⟨⟨[], []⟩, []⟩ buf (List.replicate 600 0) false false true).1.d.w.out =
      "{\"L\":[{".toUTF8.toList :=
  ⟨piece "[1".toUTF8.toList, List.replicate 40 0, by decide +kernel, by decide, by decide +kernel, by decide +kernel,
    by decide +kernel, by decide +kernel⟩

end Verif.Ddb
