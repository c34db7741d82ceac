import Verif.Scan.AcceptProps
import Verif.Scan.TokenBack

/-!
# What an `Ok` of `scan` says about the input if there are SSE tokens (C106)
-/

namespace Verif.Scan

open Verif.RJiter
open Verif.RJiter.Jiter
open Verif.U8Pool (Pool PRes PoolError)

variable {β : Type}

theorem Tok.sees_of_watches {cb : Callbacks β} {O : Observer β} (h : Watches cb O) (F : Nat) (strict : Tok.Care) :
    Tok.Sees cb O.handler F strict := by
  refine ⟨?_, h.finish⟩
  intro p path b s _
  have hx := h.start p path b s
  simp only [Observer.handler]
  rcases hf : cb.find p ⟨path, path.length⟩ b with ⟨b', act⟩
  rw [hf] at hx
  cases act with
  | none => simp only at hx ⊢; intro _; rw [hx]
  | some act =>
    simp only at hx ⊢
    rcases ha : act s b' with ⟨⟨s', b''⟩, o⟩
    rw [ha] at hx
    cases o with
    | op o =>
      cases o with
      | none =>
        simp only at hx ⊢
        exact ⟨hx.1, fun _ => by rw [hx.2]⟩
      | valueIsConsumed => exact hx.elim
      | error m => trivial
    | panic => exact hx.elim
    | diverge => exact hx.elim

/-- **C106, partial.** Full statement: `scan` with SSE tokens returns `Ok` only if the input is a sequence of JSON documents and tokens, where
the tokens can also be items of the documents that are arrays. It is false, see `C106_half_string`, `C106_trailing_comma` and `C106_number`, and C65
for what is accepted as a document. Proved, for any tokens that are not empty and do not begin with a quote, any input in any chunks, a reader that
does not fail, and a buffer of at least eight bytes: if `scan`, for a client that does not touch the parser, returns `Ok`, then all of the input is a
sequence of lax documents, that is loose documents (C65) and tokens; a token is never inside of an object or a nested array; there may be a comma
behind a token at the end of an array, and a number of the length of the buffer may be in front of a token. The callbacks were called
for these documents as `Docs.scan` says, once for each token as for an atom. -/
theorem C106_accepted_partial (turns F : Nat) (cb : Callbacks β) (O : Observer β) (R : Room) (l : List (Pos × Bytes)) (T : List Bytes) (st st' : St β)
    (hW : Watches cb O) (hT : ∀ t ∈ T, ∃ c r, t = c :: r ∧ c ≠ 34) (hu : Usable F st.rj) (hcl : st.rj.b.reader.Clean) (hst : Holds st.pool R l)
    (h : scan turns F cb ⟨T, false⟩ st = (st', .ok ())) :
    ∃ ds tail, st.rj.rest = Docs.text ds tail ∧ Docs.Lax T st.rj.b.buf.length (Harmless st.rj) (l.length + 1) ds tail ∧
      Docs.Severed T st.rj.b.buf.length ds tail ∧ Docs.scan O.handler R (nameTop :: names l) ds st.baton = .done st'.baton ∧ st'.rj.rest = [] := by
  rcases Tok.scan_back (Tok.sees_of_watches hW F ⟨⟨Harmless st.rj, st.rj.b.buf.length⟩, T⟩) ⟨rfl, hT⟩ turns ⟨⟨hu, id, rfl⟩, hcl⟩ hst h with
    ⟨h1, h2, h3⟩ | ⟨ws, v, x, b1, h1, h2, _, ⟨h3, hp⟩, _, h4, h5⟩
  · exact ⟨[], _, rfl, h1, trivial, by rw [h2]; rfl, h3⟩
  · simp only [Tok.Tail, Tok.ends, Bool.false_eq_true, if_false] at h5
    obtain ⟨ds, tail, j1, j2, jp, j3, j4⟩ := h5
    refine ⟨(ws, v) :: ds, tail, by rw [h1, j1]; rfl, ⟨h2, h3, j2⟩, ⟨j1 ▸ hp, jp⟩, ?_, j4⟩
    simp only [names, List.map_cons] at h4
    simp only [Docs.scan]
    rw [show v.scan O.handler R (nameTop :: names l) st.baton = .done b1 from h4]
    exact j3

/-- **C106, partial**, with `stop_early`: an `Ok` means that there is one lax document, or one token, or nothing but space; what is behind it is not
consumed. -/
theorem C106_first_partial (turns F : Nat) (cb : Callbacks β) (O : Observer β) (R : Room) (l : List (Pos × Bytes)) (T : List Bytes) (st st' : St β)
    (hW : Watches cb O) (hT : ∀ t ∈ T, ∃ c r, t = c :: r ∧ c ≠ 34) (hu : Usable F st.rj) (hcl : st.rj.b.reader.Clean) (hst : Holds st.pool R l)
    (h : scan turns F cb ⟨T, true⟩ st = (st', .ok ())) :
    (Blank st.rj.rest ∧ st'.baton = st.baton ∧ st'.rj.rest = []) ∨
    ∃ ws, ∃ v : Val, st.rj.rest = ws ++ (v.text ++ st'.rj.rest) ∧ Blank ws ∧ v.Lax T st.rj.b.buf.length (Harmless st.rj) True (l.length + 1) ∧
      (v.Parted st.rj.b.buf.length st'.rj.rest ∨ v.Skipped T st.rj.b.buf.length) ∧
      v.scan O.handler R (nameTop :: names l) st.baton = .done st'.baton := by
  rcases Tok.scan_back (Tok.sees_of_watches hW F ⟨⟨Harmless st.rj, st.rj.b.buf.length⟩, T⟩) ⟨rfl, hT⟩ turns ⟨⟨hu, id, rfl⟩, hcl⟩ hst h with
    h1 | ⟨ws, v, x, b1, h1, h2, _, ⟨h3, hp⟩, _, h4, h5⟩
  · exact .inl h1
  · simp only [Tok.Tail, Tok.ends, if_true] at h5
    obtain ⟨rfl, rfl⟩ := h5
    exact .inr ⟨ws, v, h1, h2, h3, hp, h4⟩

/-! ### Example -/

/-- ` data: {"k":[1]}⏎data: [2,data:, null]⏎data:` in two chunks, with a buffer of sixteen bytes. -/
def exSse : St (List Event) :=
  ⟨.new [.data 32 (exData ++ [32, 123, 34, 107, 34, 58, 91, 49, 93, 125, 10, 100, 97]),
      .data 116 ([97, 58, 32, 91, 50, 44] ++ exData ++ [44, 32, 110, 117, 108, 108, 93, 10] ++ exData)] (List.replicate 16 0), [], exPool⟩

example : Watches watch logger ∧ (∀ t ∈ [exData], ∃ c r, t = c :: r ∧ c ≠ 34) ∧ Usable 200 exSse.rj ∧ exSse.rj.b.reader.Clean ∧
    Holds exSse.pool exRoom [] ∧ scan 60 200 watch ⟨[exData], false⟩ exSse = ((scan 60 200 watch ⟨[exData], false⟩ exSse).1, .ok ()) :=
  ⟨watch_logs, by simp [exData], usable_new _ _ _ (by decide) (by decide), by decide, exPool_holds, by decide +kernel⟩

/-- The same with `stop_early`: the token is consumed. -/
example : Watches watch logger ∧ (∀ t ∈ [exData], ∃ c r, t = c :: r ∧ c ≠ 34) ∧ Usable 200 exSse.rj ∧ exSse.rj.b.reader.Clean ∧
    Holds exSse.pool exRoom [] ∧ scan 60 200 watch ⟨[exData], true⟩ exSse = ((scan 60 200 watch ⟨[exData], true⟩ exSse).1, .ok ()) ∧
    (scan 60 200 watch ⟨[exData], true⟩ exSse).1.rj.currentIndex = 6 :=
  ⟨watch_logs, by simp [exData], usable_new _ _ _ (by decide) (by decide), by decide, exPool_holds, by decide +kernel, by decide +kernel⟩

/-- A token inside of an object, or of a nested array, is refused: `{"k":data:}` and `[[data:]]`. -/
example : (scan 60 200 watch ⟨[exData], false⟩ ⟨.new [.data 123 ([34, 107, 34, 58] ++ exData ++ [125])] (List.replicate 16 0), [], exPool⟩).2 ≠ .ok () ∧
    (scan 60 200 watch ⟨[exData], false⟩ ⟨.new [.data 91 (91 :: exData ++ [93, 93])] (List.replicate 16 0), [], exPool⟩).2 ≠ .ok () := by
  decide +kernel

/-! ### The false parts -/

/-- **C106, a false part**, and the reason for the condition on the tokens: with a token that begins with a quote, a string that is not
closed is accepted. `"data` is all of the input, `"a` the token: it is not in the input. -/
theorem C106_half_string :
    (scan 40 100 watch ⟨[[34, 97]], false⟩ ⟨.new [.data 34 [100, 97, 116, 97]] (List.replicate 20 0), [], exPool⟩).2 = .ok () ∧
    ¬ [34, 97] <:+: ([34, 100, 97, 116, 97] : Bytes) := by
  decide +kernel

/-- **C106, a false part.** Behind a token the comma in front of the end of an array is accepted: `[data:,]`. It is not with a space in front of
the comma, `[data: ,]`, or behind another item, `[1,]`. -/
theorem C106_trailing_comma :
    (scan 40 100 watch ⟨[exData], false⟩ ⟨.new [.data 91 (exData ++ [44, 93])] (List.replicate 10 0), [], exPool⟩).2 = .ok () ∧
    (scan 40 100 watch ⟨[exData], false⟩ ⟨.new [.data 91 (exData ++ [32, 44, 93])] (List.replicate 10 0), [], exPool⟩).2 ≠ .ok () ∧
    (scan 40 100 watch ⟨[exData], false⟩ ⟨.new [.data 91 [49, 44, 93]] (List.replicate 10 0), [], exPool⟩).2 ≠ .ok () := by
  decide +kernel

/-- `12345678data:` at once, with a buffer of `n` bytes. -/
def exLong (n : Nat) : St (List Event) := ⟨.new [.data 49 ([50, 51, 52, 53, 54, 55, 56] ++ exData)] (List.replicate n 0), [], exPool⟩

/-- **C106, a false part.** A number that fills the buffer is skipped together with the token behind it: for `12345678data:` there is one
callback for an atom, with a buffer of eight bytes, and there are two with a larger one. -/
theorem C106_number :
    (scan 40 100 watch ⟨[exData], false⟩ (exLong 8)).2 = .ok () ∧ (scan 40 100 watch ⟨[exData], false⟩ (exLong 8)).1.baton.length = 1 ∧
    (scan 40 100 watch ⟨[exData], false⟩ (exLong 16)).2 = .ok () ∧ (scan 40 100 watch ⟨[exData], false⟩ (exLong 16)).1.baton.length = 2 := by
  decide +kernel

end Verif.Scan
