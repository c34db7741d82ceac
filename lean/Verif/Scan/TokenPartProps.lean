import Verif.Scan.PartProps
import Verif.Scan.TokenBackProps
import Verif.Scan.TokenPart

/-!
# What has been reported when `scan` with SSE tokens fails (C107)
-/

namespace Verif.Scan

open Verif.RJiter
open Verif.RJiter.Jiter
open Verif.U8Pool (Pool PRes PoolError)

variable {β : Type}

theorem Tok.sees_all_of_watches {cb : Callbacks β} {O : Observer β} (h : Watches cb O) (F : Nat) (strict : Tok.Care) :
    Tok.SeesAll cb O.handler O.fails F strict := by
  refine ⟨Tok.sees_of_watches h F strict, ?_⟩
  intro p path b s _
  have hx := h.start p path b s
  simp only [Observer.fails]
  rcases hf : cb.find p ⟨path, path.length⟩ b with ⟨b', act⟩
  rw [hf] at hx
  cases act with
  | none => trivial
  | some act =>
    simp only at hx ⊢
    rcases ha : act s b' with ⟨⟨s', b''⟩, o⟩
    rw [ha] at hx
    cases o with
    | op o =>
      cases o with
      | none => trivial
      | valueIsConsumed => trivial
      | error m => exact ⟨m, hx⟩
    | panic => exact hx.elim
    | diverge => exact hx.elim

theorem Tok.PEntire.broken_stop {strict : Tok.Care} {stop : Bool} {H : Handler β} {E : Failing β} {R : Room} {tight : Prop} {n : Bytes}
    {l : List (Pos × Bytes)} {rest : Bytes} {b b' : β} (h : Tok.PEntire strict stop H E R tight ((.top, n) :: l) rest b b') :
    ∃ (ds : Docs) (b0 : Bytes) (x : Stub) (t : Bytes) (b1 : β), rest = Docs.text ds (b0 ++ (x.lead ++ t)) ∧
      (stop = true → ds = []) ∧ Docs.Lax strict.tokens strict.len strict.safe (l.length + 1) ds b0 ∧
      Docs.Severed strict.tokens strict.len ds (b0 ++ (x.lead ++ t)) ∧ x.Lax strict.tokens strict.len strict.safe (l.length + 1) ∧
      Docs.scan H R (n :: names l) ds b = .done b1 ∧ x.Gives H E R (n :: names l) t b1 b' := by
  cases stop with
  | false =>
    obtain ⟨ds, b0, x, t, b1, h1, h2⟩ := h.broken
    exact ⟨ds, b0, x, t, b1, h1, by simp, h2⟩
  | true =>
    rcases h with ⟨ws, x, t, h1, h2, h3, _, h4⟩ | ⟨_, _, _, _, _, _, _, _, _, h, _⟩
    · exact ⟨[], ws, x, t, b, h1, fun _ => rfl, h2, trivial, h3, rfl, by simpa only [names, List.map_cons] using h4⟩
    · simp at h

/-- **C107, partial.** Full statement: if `scan` with SSE tokens returns an error, then the input starts with a sequence of JSON documents and
tokens and the beginning of another document, and the callbacks were called for these and for nothing else. It is false for the reasons C106 is. Proved,
for any tokens that are not empty and do not begin with a quote, any input in any chunks, a reader that does not fail, and a buffer of at least eight
bytes: if `scan`, for a client that does not touch the parser, returns an error, then the input starts with a sequence of lax documents `ds` (C106) and
the beginning `x` of another one, and what the client has seen is: the callbacks for `ds`, as `Docs.scan` says, and then the callbacks for
`x`, as `Stub.Gives` says. With `stop_early` there is no document, and no token, in front of `x`. -/
theorem C107_reported_partial (turns F : Nat) (cb : Callbacks β) (O : Observer β) (R : Room) (stop : Bool) (l : List (Pos × Bytes)) (T : List Bytes)
    (st st' : St β) (e : SErr) (hW : Watches cb O) (hT : ∀ t ∈ T, ∃ c r, t = c :: r ∧ c ≠ 34) (hu : Usable F st.rj)
    (hcl : st.rj.b.reader.Clean) (hst : Holds st.pool R l) (h : scan turns F cb ⟨T, stop⟩ st = (st', .err e)) :
    ∃ ds b0 x t b1, st.rj.rest = Docs.text ds (b0 ++ (Stub.lead x ++ t)) ∧ (stop = true → ds = []) ∧
      Docs.Lax T st.rj.b.buf.length (Harmless st.rj) (l.length + 1) ds b0 ∧ Docs.Severed T st.rj.b.buf.length ds (b0 ++ (x.lead ++ t)) ∧
      x.Lax T st.rj.b.buf.length (Harmless st.rj) (l.length + 1) ∧ Docs.scan O.handler R (nameTop :: names l) ds st.baton = .done b1 ∧
      x.Gives O.handler O.fails R (nameTop :: names l) t b1 st'.baton :=
  (Tok.scan_part (Tok.sees_all_of_watches hW F ⟨⟨Harmless st.rj, st.rj.b.buf.length⟩, T⟩) ⟨rfl, hT⟩ turns ⟨⟨hu, id, rfl⟩, hcl⟩ hst h (by simp)
    (by simp)).broken_stop

/-- **C107, partial**, for the client that writes down all calls: what it has written down are the events of the documents and tokens `ds`, and
then those of the beginning of a document, `x`. -/
theorem C107_log_partial (turns F : Nat) (R : Room) (stop : Bool) (l : List (Pos × Bytes)) (T : List Bytes) (st st' : St (List Event))
    (e : SErr) (hT : ∀ t ∈ T, ∃ c r, t = c :: r ∧ c ≠ 34) (hu : Usable F st.rj) (hcl : st.rj.b.reader.Clean) (hst : Holds st.pool R l)
    (h : scan turns F watch ⟨T, stop⟩ st = (st', .err e)) :
    ∃ ds b0 x t, st.rj.rest = Docs.text ds (b0 ++ (Stub.lead x ++ t)) ∧ (stop = true → ds = []) ∧
      Docs.Lax T st.rj.b.buf.length (Harmless st.rj) (l.length + 1) ds b0 ∧ x.Lax T st.rj.b.buf.length (Harmless st.rj) (l.length + 1) ∧
      x.Faces t ∧ x.Open ∧ st'.baton = st.baton ++ Docs.events (nameTop :: names l) ds ++ x.events (nameTop :: names l) := by
  obtain ⟨ds, b0, x, t, b1, h1, h2, h3, _, h4, h5, h6⟩ := C107_reported_partial turns F watch logger R stop l T st st' e watch_logs hT hu hcl hst h
  obtain ⟨h7, h8⟩ := Stub.Gives.logged x _ _ _ _ h6
  exact ⟨ds, b0, x, t, h1, h2, h3, h4, Stub.Gives.faces x _ _ _ _ h6, h7, by rw [h8, Docs.scan_logged ds _ _ h5]⟩

/-! ### Examples -/

/-- `data: {"k":1} [data:, [data:`, in two chunks: the token is refused in the nested array. -/
def exSseCut : St (List Event) :=
  ⟨.new [.data 100 [97, 116], .data 97 ([58, 32, 123, 34, 107, 34, 58, 49, 125, 32, 91] ++ exData ++ [44, 32, 91] ++ exData)] (List.replicate 16 0),
    [], exPool⟩

example : (∀ t ∈ [exData], ∃ c r, t = c :: r ∧ c ≠ 34) ∧ Usable 200 exSseCut.rj ∧ exSseCut.rj.b.reader.Clean ∧ Holds exSseCut.pool exRoom [] ∧
    (∃ e, scan 60 200 watch ⟨[exData], false⟩ exSseCut = ((scan 60 200 watch ⟨[exData], false⟩ exSseCut).1, .err e)) ∧
    (scan 60 200 watch ⟨[exData], false⟩ exSseCut).1.baton =
      Docs.events [nameTop] [([], .atom exData), ([32], .obj [] (.cons [] [107] [] [] (.atom [49]) [] .nil))] ++
      (Stub.arr [] (.later [] (.atom exData) [] (.comma (.here [32] (.arr [] (.here [] (.begun .atom))))))).events [nameTop] :=
  ⟨by simp [exData], usable_new _ _ _ (by decide) (by decide), by decide, exPool_holds,
    ⟨.unhandledPeek 100 23, by decide +kernel⟩, by decide +kernel⟩

/-- `[data:, {"k": 2`, with a client that fails for the key `k`: it is called for the array, the token, the object and the key. -/
def exSsePicky : St Nat := ⟨.new [.data 91 (exData ++ [44, 32, 123, 34, 107, 34, 58, 32, 50])] (List.replicate 20 0), 0, exPool⟩

example : Watches picky pickySees ∧ (∀ t ∈ [exData], ∃ c r, t = c :: r ∧ c ≠ 34) ∧ Usable 100 exSsePicky.rj ∧ exSsePicky.rj.b.reader.Clean ∧
    Holds exSsePicky.pool exRoom [] ∧
    scan 60 100 picky ⟨[exData], true⟩ exSsePicky = ((scan 60 100 picky ⟨[exData], true⟩ exSsePicky).1, .err (.action "k" 13)) ∧
    (scan 60 100 picky ⟨[exData], true⟩ exSsePicky).1.baton = 4 :=
  ⟨picky_watches, by simp [exData], usable_new _ _ _ (by decide) (by decide), by decide, exPool_holds, by decide +kernel, by decide +kernel⟩

/-- **C107, a false part.** For `[data:,] x` the end of the array is reported, and then an atom for the `x`: that an array with a comma in
front of its end is no JSON is not seen. For `[1,] x` the end of the array is not reported. -/
theorem C107_trailing_comma :
    (scan 40 100 watch ⟨[exData], false⟩ ⟨.new [.data 91 (exData ++ [44, 93, 32, 120])] (List.replicate 10 0), [], exPool⟩).2 =
      .err (.unhandledPeek 120 9) ∧
    (scan 40 100 watch ⟨[exData], false⟩ ⟨.new [.data 91 (exData ++ [44, 93, 32, 120])] (List.replicate 10 0), [], exPool⟩).1.baton =
      [.start .array [nameTop], .start .atom [nameArray, nameTop], .finish .array [nameTop], .start .atom [nameTop]] ∧
    (scan 40 100 watch ⟨[exData], false⟩ ⟨.new [.data 91 [49, 44, 93, 32, 120]] (List.replicate 10 0), [], exPool⟩).1.baton =
      [.start .array [nameTop], .start .atom [nameArray, nameTop]] := by
  decide +kernel

end Verif.Scan
