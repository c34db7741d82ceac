import Verif.Scan.LateIdt
import Verif.Scan.Props
import Verif.Scan.IdtProps

/-!
# Property C97: nothing is held back (`scan` and `idtransform`)

`r` delivers some input and ends; `r ++ [.fail k]` delivers the same input, and when it is asked for more, it fails (as a socket does that has
nothing for the time being). Everything that a client gets to know from the first one, it gets to know from the second one: so it is told before
more is asked for. The exception is a number at the end of the input: it may go on.
-/

namespace Verif.Scan

open Verif.RJiter RJ Jiter
open Verif.U8Pool (Pool)

/-! ## Specification -/

/-- The input does not end with a digit. -/
def NoDigit (r : Reader) : Prop := ∀ c, r.pending.getLast? = some c → ¬ Digit c

/-- Callbacks that leave the parser alone: what their actions do to the client's state, and what they answer, does not depend on it. -/
def Aloof {β : Type} (cb : Callbacks β) : Prop :=
  ∀ (p : Pseudo) (c : Ctx) (b : β) (act : Action β), (cb.find p c b).2 = some act →
    ∀ b', ∃ b2 r, ∀ s, act s b' = ((s, b2), r)

/-! ## Proofs -/

theorem aloof_patient {β : Type} {cb : Callbacks β} (h : Aloof cb) (k F : Nat) : Patient cb k F Eq := by
  refine ⟨fun _ => rfl, fun p c b s hr act hact => ?_⟩
  obtain ⟨b2, r, h⟩ := h p c b act hact (cb.find p c b).1
  rw [h, h]
  exact .still hr rfl rfl

theorem primed_new {reader : Reader} {buf : Bytes} {F : Nat} (h8 : 8 ≤ buf.length) (hf : 2 * reader.size + 2 ≤ F) (hd : NoDigit reader) :
    Primed F (.new reader buf) :=
  ⟨⟨sync_new _ _, h8, hf⟩, hd⟩

/-- **C97, partial** (callbacks that leave the parser alone). Full statement: for every input; it is false if the input ends with a digit, see
`C97_digit`. The callbacks have been called in the same way, and the client's state is the same, when `scan` finds the end of the input and when
its reader fails there. -/
theorem C97_scan_partial {β : Type} (cb : Callbacks β) (hcb : Aloof cb) (opt : Options) (hopt : opt.sseTokens = []) (turns F k : Nat)
    (reader : Reader) (buf : Bytes) (b : β) (pool : Pool) (h8 : 8 ≤ buf.length) (hf : 2 * reader.size + 2 ≤ F) (hd : NoDigit reader) :
    (scan turns F cb opt ⟨.new (reader ++ [.fail k]) buf, b, pool⟩).1.baton = (scan turns F cb opt ⟨.new reader buf, b, pool⟩).1.baton ∧
    ((scan turns F cb opt ⟨.new (reader ++ [.fail k]) buf, b, pool⟩).2 = (scan turns F cb opt ⟨.new reader buf, b, pool⟩).2 ∨
      ∃ e, (scan turns F cb opt ⟨.new (reader ++ [.fail k]) buf, b, pool⟩).2 = .err e) := by
  have := scan_both (aloof_patient hcb k F) hopt turns (st := ⟨.new reader buf, b, pool⟩) (primed_new h8 hf hd)
  exact ⟨this.1.symm, this.2⟩

theorem watch_aloof : Aloof watch := by
  intro p c b act h b'
  simp only [watch, observe] at h
  simp [nothing] at h

/-- **C97, partial**, for complete documents that have arrived: all their events are reported before more input is asked for. The modes are those of
C31. -/
theorem C97_events_partial (M : Mode) (L F k : Nat) (opt : Options) (hopt : opt.stopEarly = false) (hno : opt.sseTokens = []) (R : Room)
    (ds : Docs) (tail : Bytes) (reader : Reader) (buf : Bytes) (log : List Event) (pool : Pool)
    (hd : NoDigit reader) (hi : Inv M L F (.new reader buf)) (hst : Holds pool R [])
    (hr : reader.pending = Docs.text ds tail) (hm : Docs.Meets (rules M L) ds tail) (hfit : R.Fits [] nameTop)
    (hfits : Docs.Fit R [nameTop] ds) (turns : Nat) (ht : ds.length + (Docs.text ds tail).length + 1 ≤ turns) :
    (scan turns F watch opt ⟨.new (reader ++ [.fail k]) buf, log, pool⟩).1.baton = log ++ Docs.events [nameTop] ds := by
  have hrest : (RJ.new reader buf).rest = Docs.text ds tail := by rw [← hr]; rfl
  obtain ⟨st', h1, h2⟩ := C31_events_partial M L F opt hopt R [] ds tail ⟨.new reader buf, log, pool⟩ hi (ready_new _ _) hst hrest hm hfit hfits
  have h3 := (C97_scan_partial watch watch_aloof opt hno turns F k reader buf log pool hi.eight hi.fuel hd).1
  rw [h3, h1 turns (by simpa only [hrest] using ht), h2.baton]
  rfl

/-- **C97, partial** (as above), for `idtransform`: it has written the same. -/
theorem C97_idtransform_partial (turns F k : Nat) (reader : Reader) (buf : Bytes) (w : Writer) (pool : Pool) (h8 : 8 ≤ buf.length)
    (hf : 2 * reader.size + 2 ≤ F) (hd : NoDigit reader) :
    (idtransform turns F (.new (reader ++ [.fail k]) buf) w pool).1.2.1 = (idtransform turns F (.new reader buf) w pool).1.2.1 ∧
    ((idtransform turns F (.new (reader ++ [.fail k]) buf) w pool).2 = (idtransform turns F (.new reader buf) w pool).2 ∨
      ∃ e, (idtransform turns F (.new (reader ++ [.fail k]) buf) w pool).2 = .err e) := by
  have h := scan_both (idt_patient k F) (opt := ⟨[], true⟩) rfl turns (st := ⟨.new reader buf, .new w, pool⟩) (primed_new h8 hf hd)
  unfold idtransform
  rw [show (St.late k ⟨.new reader buf, .new w, pool⟩ : St Idt) = ⟨.new (reader ++ [.fail k]) buf, .new w, pool⟩ from rfl] at h
  generalize scan turns F (Idt.callbacks F) ⟨[], true⟩ ⟨.new reader buf, .new w, pool⟩ = x at h ⊢
  generalize scan turns F (Idt.callbacks F) ⟨[], true⟩ ⟨.new (reader ++ [.fail k]) buf, .new w, pool⟩ = y at h ⊢
  rcases x with ⟨st1, r1⟩
  rcases y with ⟨st2, r2⟩
  obtain ⟨h1, h2⟩ := h
  have h1 : st1.baton.w = st2.baton.w := h1
  rcases h2 with h2 | ⟨e, h2⟩
  · simp only at h2
    subst h2
    cases r2 with
    | err e => exact ⟨h1.symm, .inr ⟨_, rfl⟩⟩
    | ok v => exact ⟨h1.symm, .inl rfl⟩
    | panic => exact ⟨h1.symm, .inl rfl⟩
    | diverge => exact ⟨h1.symm, .inl rfl⟩
  · simp only at h2
    subst h2
    cases r1 <;> exact ⟨h1.symm, .inr ⟨_, rfl⟩⟩

/-- The input in one piece. -/
def piece : Bytes → Reader
  | [] => []
  | c :: cs => [.data c cs]

/-- `{"k": ["x", 12], "y": tru` -/
def exPause : Bytes := "{\"k\": [\"x\", 12], \"y\": tru".toUTF8.toList

example : Aloof watch ∧ (piece exPause).size ≤ 40 ∧ NoDigit (piece exPause) := by
  refine ⟨watch_aloof, by decide +kernel, ?_⟩
  intro c hc
  have : (piece exPause).pending.getLast? = some 117 := by decide +kernel
  rw [this] at hc
  injection hc with hc
  subst hc
  intro h
  exact absurd h.2 (by decide)

/-- What is reported there, and that it is more than nothing. -/
example : (scan 60 100 watch ⟨[], false⟩ ⟨.new (piece exPause ++ [.fail 3]) (List.replicate 40 0), [], exPool⟩).1.baton.length = 9 ∧
    (idtransform 60 100 (.new (piece exPause ++ [.fail 3]) (List.replicate 40 0)) ⟨[], []⟩ exPool).1.2.1.out =
      "{\"k\":[\"x\",12],\"y\":".toUTF8.toList := by decide +kernel

/-- A complete document and white space, byte by byte, meet the hypotheses of `C97_events_partial`. -/
example : Inv (streamMode false false 8) 8 100 exSt.rj ∧ exSt.rj = .new (oneByOne (32 :: (exArr.text ++ [32]))) (List.replicate 8 0) ∧
    NoDigit (oneByOne (32 :: (exArr.text ++ [32]))) ∧ (oneByOne (32 :: (exArr.text ++ [32]))).pending = Docs.text [([32], exArr)] [32] ∧
    2 * (oneByOne (32 :: (exArr.text ++ [32]))).size + 2 ≤ 100 := by
  refine ⟨exSt_inv, rfl, ?_, by decide, by decide⟩
  intro c hc
  have : (oneByOne (32 :: (exArr.text ++ [32]))).pending.getLast? = some 32 := by decide +kernel
  rw [this] at hc
  injection hc with hc
  subst hc
  intro h
  exact absurd h.1 (by decide)

/-- **C97, the false part.** `{"a":1`: at the end of the input the number is taken and the end of the member is reported; if the reader fails
there, it is not. `idtransform` has then written `{"a":1`, and `{"a":`. -/
theorem C97_digit : ∃ (reader : Reader) (buf : Bytes), reader.Clean ∧ 40 ≤ buf.length ∧ 2 * reader.size + 2 ≤ 100 ∧
    reader.pending = "{\"a\":1".toUTF8.toList ∧
    (scan 40 100 watch ⟨[], false⟩ ⟨.new reader buf, [], exPool⟩).1.baton =
      (scan 40 100 watch ⟨[], false⟩ ⟨.new (reader ++ [.fail 0]) buf, [], exPool⟩).1.baton ++ [.finish .none [[97], nameTop]] ∧
    (idtransform 40 100 (.new reader buf) ⟨[], []⟩ exPool).1.2.1.out = "{\"a\":1".toUTF8.toList ∧
    (idtransform 40 100 (.new (reader ++ [.fail 0]) buf) ⟨[], []⟩ exPool).1.2.1.out = "{\"a\":".toUTF8.toList :=
  ⟨piece "{\"a\":1".toUTF8.toList, List.replicate 40 0, by decide +kernel, by decide, by decide +kernel, by decide +kernel,
    by decide +kernel, by decide +kernel, by decide +kernel⟩

end Verif.Scan
