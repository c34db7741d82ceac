import Verif.Scan.Position
import Verif.Scan.ReturnsProps

/-!
# Property C95: the position in an error of `scan`
-/

namespace Verif.Scan

open Verif.RJiter
open Verif.U8Pool (Pool)

variable {β : Type}

/-- **C95** (partial). The full property is that the position in an error of `scan` is a place of the input, from the place where the scan
began to the end of the input. It is false for an error of the parser (`C95_beyond`): such a position can be behind the end, but by less than
the length of the buffer and 5 more. Every other error has the position where the parser is afterwards, which is in the input. Here the buffer
has at least eight bytes, the reader does not fail, and the actions keep to the input. -/
theorem C95_scan_partial {cb : Callbacks β} {F : Nat} {K : β → Prop} {opt : Options} (hC : Steady cb F K) {n : Nat} {st st' : St β} {e : SErr}
    (hu : Usable F st.rj) (hcl : st.rj.b.reader.Clean) (hk : K st.baton) (hx : scan n F cb opt st = (st', .err e)) :
    Placed st.rj.currentIndex (st.rj.currentIndex + st.rj.rest.length) (st.rj.b.buf.length + 4) st'.rj.currentIndex e :=
  (scan_at hC hu hcl hk hx).1

/-- Callbacks that only watch, whatever the context is. -/
def Looks (cb : Callbacks β) : Prop := ∀ (p : Pseudo) (c : Ctx) (b b' : β) (a : Action β) (s : RJ), cb.find p c b = (b', some a) →
  (a s b').1.1 = s ∧ (a s b').2 ≠ .op .valueIsConsumed

theorem Looks.steady {cb : Callbacks β} (h : Looks cb) (F : Nat) : Steady cb F (fun _ => True) := by
  constructor
  · intro p c b s _ hu _
    rcases hf : cb.find p c b with ⟨b', _ | a⟩
    · trivial
    · have := h p c b b' a s hf
      have hn : s.Near s := .ofMoved (.refl hu.sync)
      simp only
      revert this
      rcases a s b' with ⟨⟨s', b''⟩, (_ | _ | m) | _ | _⟩
      · rintro ⟨h1, _⟩; simp only at h1; subst h1; exact ⟨⟨hn, hu.sync⟩, trivial⟩
      · rintro ⟨_, h1⟩; exact absurd rfl h1
      · rintro ⟨h1, _⟩; simp only at h1; subst h1; exact hn.index
      · intro _; trivial
      · intro _; trivial
  · intro p c b _
    rcases cb.findEnd p c b with ⟨b', _ | a⟩ <;> simp

/-- **C95** for callbacks that only watch, and a fresh parser: the position is at most the length of the input, or the error is one of the
parser and it is less than a buffer and 5 more. -/
theorem C95_watching {cb : Callbacks β} (h : Looks cb) (opt : Options) (reader : Reader) (hcl : reader.Clean) (buf : Bytes) (h8 : 8 ≤ buf.length)
    (b : β) (pool : Pool) (n : Nat) {st' : St β} {e : SErr}
    (hx : scan n (2 * reader.size + 2) cb opt ⟨.new reader buf, b, pool⟩ = (st', .err e)) :
    Placed 0 reader.pending.length (buf.length + 4) st'.rj.currentIndex e := by
  have := C95_scan_partial (h.steady (2 * reader.size + 2)) (st := ⟨.new reader buf, b, pool⟩) (usable_new reader buf _ h8 (Nat.le_refl _)) hcl trivial hx
  have hr : (RJ.new reader buf).rest = reader.pending := rest_new _ _
  have h0 : (RJ.new reader buf).currentIndex = 0 := rfl
  simp only [hr, h0, Nat.zero_add] at this
  exact this

/-- Callbacks that do nothing. -/
def silent : Callbacks Unit := ⟨fun _ _ b => (b, none), fun _ _ b => (b, none)⟩

theorem silent_looks : Looks silent := by intro p c b b' a s h; simp [silent] at h

/-- `{"a":tru}`: the position is that of the broken literal, which is in the input. -/
example : Looks silent ∧ (Reader.Clean [.data 123 [34, 97, 34, 58, 116, 114, 117, 125]]) ∧
    (scan 20 20 silent ⟨[], false⟩ ⟨.new [.data 123 [34, 97, 34, 58, 116, 114, 117, 125]] (List.replicate 16 0), (), exPool⟩).2 =
      .err (.unhandledPeek 116 5) ∧
    Placed 0 9 (16 + 4) 5 (.unhandledPeek 116 5) :=
  ⟨silent_looks, by simp [Reader.Clean], by decide +kernel, ⟨rfl, by omega, by omega⟩⟩

/-- Negation of property C95: `{"a":1,"b" 2}` has 13 bytes, and the error that there is no colon is at the position 16. -/
theorem C95_beyond :
    (scan 20 20 silent ⟨[], false⟩ ⟨.new [.data 123 [34, 97, 34, 58, 49, 44, 34, 98, 34, 32, 50, 125]] (List.replicate 16 0), (), exPool⟩).2 =
      .err (.rjiter ⟨.json .expectedColon, 16⟩) := by decide +kernel

end Verif.Scan
