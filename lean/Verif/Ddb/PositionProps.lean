import Verif.Ddb.Position
import Verif.Ddb.Cli
import Verif.Ddb.CliSound
import Verif.Scan.PositionProps

/-!
# Property C95: the position in an error of the converters
-/

namespace Verif.Ddb

open Verif.U8Pool (Pool)
open Verif.RJiter (RJ Reader Err)
open Verif.Scan

/-- An error at the position `p`, in an input of `length` bytes with a buffer of `size` bytes: the position is in the input, or the error is
one of the parser and the position is less than the length of the buffer and 5 behind the end. -/
def ErrorAt (length size : Nat) (e : ConvErr) (p : Nat) : Prop := p ≤ length ∨ (∃ er, e = .scan (.rjiter er)) ∧ p ≤ length + size + 4

theorem errorAt_report {β : Type} {cb : Callbacks β} {F : Nat} {stored : β → Option ConvErr} {st : St β} {s0 : RJ} {e : SErr} {err : ConvErr} {p : Nat} (h0 : s0.currentIndex = 0)
    (h : EndedAt cb F (fun b => stored b = none) s0 st e) (hr : report (stored st.baton) st.rj.currentIndex e = .err err p) :
    ErrorAt s0.rest.length s0.b.buf.length err p := by
  obtain ⟨ha, hk⟩ := h
  unfold AtPlace at ha
  rw [h0] at ha
  unfold report at hr
  rcases hs : stored st.baton with _ | x
  · rw [hs] at hr
    simp only [Conv.err.injEq] at hr
    obtain ⟨rfl, rfl⟩ := hr
    cases e <;> simp only [Placed, position] at ha ⊢ <;> first | exact .inr ⟨⟨_, rfl⟩, by omega⟩ | exact .inl (by omega) | exact ha.elim
  · rw [hs] at hr
    simp only [Conv.err.injEq] at hr
    obtain ⟨rfl, rfl⟩ := hr
    obtain ⟨m, q, rfl, _⟩ := hk.resolve_left (by simp only [hs]; nofun)
    simp only [Placed, position] at ha ⊢
    exact .inl (by omega)

/-- **C95** (partial), `convert_ddb_to_normal`. The full statement is that the position is at most the length of the input; it is false
(`C95_from_ddb_beyond`). The reader does not fail; it may deliver the input in any chunks, writing may fail, and the input is arbitrary. -/
theorem C95_from_ddb_partial (turns F : Nat) (reader : Reader) (d : Dest) (rb cb : Bytes) (pretty unbuffered wrapper : Bool) (h8 : 8 ≤ rb.length)
    (hf : 2 * reader.size + 2 ≤ F) (hcl : reader.Clean) {e : ConvErr} {p : Nat}
    (hr : (convertDdbToNormal turns F reader d rb cb pretty unbuffered wrapper).2 = .err e p) : ErrorAt reader.pending.length rb.length e p := by
  unfold convertDdbToNormal at hr
  rcases hp : U8Pool.new cb 68 with pool | _ | _
  · rw [hp] at hr
    simp only at hr
    rcases hx : scan turns F (ToNormal.callbacks F) ⟨[], false⟩ ⟨.new reader rb, .new d pretty unbuffered wrapper, pool⟩ with ⟨st', _ | e' | _ | _⟩
    all_goals rw [hx] at hr
    · cases hr
    · have h := errorAt_report (stored := fun b : ToNormal => b.lastError) rfl
        (scan_at (ToNormal.steady F) (usable_new reader rb _ h8 hf) hcl rfl hx) hr
      simp only [Verif.RJiter.rest_new] at h
      exact h
    · cases hr
    · cases hr
  · rw [hp] at hr
    simp only [Conv.err.injEq] at hr
    exact .inl (by omega)
  · rw [hp] at hr
    cases hr

/-- **C95** (partial), `convert_normal_to_ddb`, as `C95_from_ddb_partial`; the negation of the full statement is `C95_to_ddb_beyond`. -/
theorem C95_to_ddb_partial (turns F : Nat) (reader : Reader) (d : Dest) (rb cb : Bytes) (pretty unbuffered wrapper : Bool) (h8 : 8 ≤ rb.length)
    (hf : 2 * reader.size + 2 ≤ F) (hcl : reader.Clean) {e : ConvErr} {p : Nat}
    (hr : (convertNormalToDdb turns F reader d rb cb pretty unbuffered wrapper).2 = .err e p) : ErrorAt reader.pending.length rb.length e p := by
  unfold convertNormalToDdb at hr
  rcases hp : U8Pool.new cb 34 with pool | _ | _
  · rw [hp] at hr
    simp only at hr
    rcases hx : scan turns F (ToDdb.callbacks F) ⟨[], false⟩ ⟨.new reader rb, .new d wrapper pretty unbuffered, pool⟩ with ⟨st', _ | e' | _ | _⟩
    all_goals rw [hx] at hr
    · cases hr
    · have h := errorAt_report (stored := fun b : ToDdb => b.lastError) rfl
        (scan_at (ToDdb.steady F) (usable_new reader rb _ h8 hf) hcl rfl hx) hr
      simp only [Verif.RJiter.rest_new] at h
      exact h
    · cases hr
    · cases hr
  · rw [hp] at hr
    simp only [Conv.err.injEq] at hr
    exact .inl (by omega)
  · rw [hp] at hr
    cases hr

/-- **C95** (partial) for the tool: the number in `Error at position …` is at most the length of the input and 65540, and at most the length of
the input if the error is not one of the parser. -/
theorem C95_tool_partial (turns F : Nat) (args : Args) (reader : Reader) (c c' : Chan) {e : ConvErr} {p : Nat} (hf : 2 * reader.size + 2 ≤ F)
    (hcl : reader.Clean) (run : Runs turns F args reader c c' (.err e p)) :
    p ≤ reader.pending.length ∨ (∃ er, e = .scan (.rjiter er)) ∧ p ≤ reader.pending.length + 65540 := by
  obtain ⟨_, _, _, d, hc, _⟩ := run
  have hl : lookBuffer.length = 65536 := lookBuffer_length
  unfold convert at hc
  split at hc
  · have := C95_to_ddb_partial turns F reader _ lookBuffer nameBuffer _ _ _ (by rw [hl]; decide) hf hcl (Prod.mk.inj hc).2
    rwa [ErrorAt, hl] at this
  · have := C95_from_ddb_partial turns F reader _ lookBuffer nameBuffer _ _ _ (by rw [hl]; decide) hf hcl (Prod.mk.inj hc).2
    rwa [ErrorAt, hl] at this

/-- `{"a":{"Q":1}}`: the unknown type is reported at the position 10, in front of its value. -/
example : Reader.Clean [.data 123 "\"a\":{\"Q\":1}}".toUTF8.toList] ∧
    (convertDdbToNormal 40 60 [.data 123 "\"a\":{\"Q\":1}}".toUTF8.toList] ⟨⟨[], []⟩, []⟩ (List.replicate 64 0) (List.replicate 1024 0) false false true).2 =
      .err (.parse "Invalid DynamoDB JSON format: unknown type descriptor" (some [81])) 10 := ⟨by simp [Reader.Clean], by decide +kernel⟩

/-- Negation of property C95, `convert_ddb_to_normal`: `{"a":{"S":"b"},"b" 2}` has 21 bytes, the error is at the position 24. -/
theorem C95_from_ddb_beyond :
    (convertDdbToNormal 40 60 [.data 123 "\"a\":{\"S\":\"b\"},\"b\" 2}".toUTF8.toList] ⟨⟨[], []⟩, []⟩ (List.replicate 64 0) (List.replicate 1024 0) false false
      true).2 = .err (.scan (.rjiter ⟨.json .expectedColon, 24⟩)) 24 := by decide +kernel

/-- Negation of property C95, `convert_normal_to_ddb`: `{"a":"b","b" 2}` has 15 bytes, the error is at the position 18. -/
theorem C95_to_ddb_beyond :
    (convertNormalToDdb 40 60 [.data 123 "\"a\":\"b\",\"b\" 2}".toUTF8.toList] ⟨⟨[], []⟩, []⟩ (List.replicate 64 0) (List.replicate 1024 0) false false
      false).2 = .err (.scan (.rjiter ⟨.json .expectedColon, 18⟩)) 18 := by decide +kernel

end Verif.Ddb
