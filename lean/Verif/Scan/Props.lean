import Verif.Scan.Top
import Verif.Scan.Modes
import Verif.Scan.Events

/-!
# Properties C30, C31, C32, C33, C35, C36 of `scan_json`

The theorems on `scan` hold in the situations described by a `Mode`; the instances are `wholeMode` (the whole input
fits in the buffer) and `streamMode` (any input length and, with limitations, any chunking), see `Modes.lean`.

`turns` bounds the turns of the main loop of the model; it is universally quantified from a stated number on.
-/

namespace Verif.Scan

open Verif.RJiter
open Verif.U8Pool (Pool)

/-! ## C30 -/

/-- The pseudo-name of a structural event. -/
def Pseudo.name : Pseudo → Option Bytes
  | .array => some nameArray
  | .object => some nameObject
  | .atom => some nameAtom
  | .none => Option.none

theorem matchNames_iff : ∀ (expected path : List Bytes), matchNames expected path = true ↔ expected <+: path
  | [], path => by simp [matchNames]
  | e :: es, [] => by simp [matchNames]
  | e :: es, a :: as => by
    simp only [matchNames, List.cons_prefix_cons]
    by_cases h : e = a
    · simp [h, matchNames_iff es as]
    · simp [h]

/-- **C30.** -/
theorem C30_iter_match (expected path : List Bytes) (p : Pseudo) :
    iterMatch expected p path = true ↔
      expected = [] ∨
      (∃ name rest, p.name = some name ∧ expected = name :: rest ∧ ∃ more, path = rest ++ more) ∨
      (p.name = none ∧ ∃ more, path = expected ++ more) := by
  have hs : ∀ name, matchStructural name expected path = true ↔
      expected = [] ∨ ∃ rest, expected = name :: rest ∧ ∃ more, path = rest ++ more := by
    intro name
    cases expected with
    | nil => simp [matchStructural]
    | cons e es =>
      simp only [matchStructural]
      by_cases h : e = name
      · subst h
        simp only [if_true, matchNames_iff, List.cons.injEq, true_and, exists_eq_left', reduceCtorEq, false_or]
        exact ⟨fun ⟨m, h⟩ => ⟨m, h.symm⟩, fun ⟨m, h⟩ => ⟨m, h.symm⟩⟩
      · simp [h]
  cases p with
  | none =>
    simp only [iterMatch, Pseudo.name, matchNames_iff]
    constructor
    · intro ⟨m, h⟩; exact .inr (.inr ⟨trivial, m, h.symm⟩)
    · rintro (h | ⟨_, _, h, _⟩ | ⟨_, m, h⟩)
      · subst h; exact List.nil_prefix
      · simp at h
      · exact ⟨m, h.symm⟩
  | array => simp [iterMatch, Pseudo.name, hs]
  | object => simp [iterMatch, Pseudo.name, hs]
  | atom => simp [iterMatch, Pseudo.name, hs]

/-- `iter_match(|| ["#atom", "a"], Atom, a <- b <- #top)`, and the same for a key. -/
example : iterMatch [nameAtom, [97]] .atom [[97], [98], nameTop] = true ∧
    iterMatch [nameAtom, [97]] .none [[97], [98], nameTop] = false ∧
    iterMatch [[97], [98]] .none [[97], [98], nameTop] = true ∧
    iterMatch [[97], [98], nameTop, nameTop] .none [[97], [98], nameTop] = false := by decide

/-! ## Clients that observe -/

/-- Callbacks that write down the calls of `find_action` and `find_end_action`, and that answer selected
calls with the action `act`. -/
def observe (sel : Selection) (act : Action (List Event)) : Callbacks (List Event) where
  find p c log := (log ++ [.start p c.path], if sel p c.path then some act else none)
  findEnd p c log := (log ++ [.finish p c.path], none)

/-- Where a start callback is called: in front of a value that meets the rules, or, for a key, in front of
the space before it. -/
structure Called (Rs : Rules) (p : Pseudo) (v : Val) (s : RJ) (ws t : Bytes) : Prop where
  starts : Starts p v
  meets : v.Meets Rs
  space : Spaces ws
  noSpace : p ≠ .none → ws = []
  head : v.HeadMeets Rs ws ∨ p ≠ .none
  rest : s.rest = ws ++ (v.text ++ t)
  ends : Ends v t

/-- The action consumes the value of each selected event, and leaves the client's state as it is. -/
def Consumes (M : Mode) (L F : Nat) (sel : Selection) (act : Action (List Event)) : Prop :=
  ∀ (p : Pseudo) (path : List Bytes) (v : Val) (s : RJ) (ws t : Bytes) (log : List Event), sel p path = true → Inv M L F s →
    Called (rules M L) p v s ws t →
    ∃ s', act s log = ((s', log), .op .valueIsConsumed) ∧ Inv M L F s' ∧ s.Moved s' (ws.length + v.text.length) ∧ 0 < s'.jidx

theorem observe_implements {M : Mode} {L F : Nat} {sel : Selection} {act : Action (List Event)} (h : Consumes M L F sel act) :
    Implements (observe sel act) (observer sel) (Inv M L F) (rules M L) := by
  refine ⟨?_, fun p path b => rfl⟩
  intro p path v b s ws t hi h1 h2 h3 h4 h5 h6 h7
  simp only [observe, observer]
  by_cases hs : sel p path = true
  · obtain ⟨s', e, h8, h9, h10⟩ := h p path v s ws t (b ++ [.start p path]) hs hi ⟨h1, h2, h3, h4, h5, h6, h7⟩
    simp only [hs, if_true, e]
    exact ⟨trivial, h8, h9, h10⟩
  · simp only [hs, Bool.false_eq_true, if_false]

/-- Callbacks that only watch. -/
def watch : Callbacks (List Event) := observe nothing (fun s log => ((s, log), .op .none))

theorem watch_implements (M : Mode) (L F : Nat) : Implements watch (observer nothing) (Inv M L F) (rules M L) :=
  observe_implements (fun _ _ _ _ _ _ _ h => by simp [nothing] at h)

/-! ## Fresh parsers and pools -/

theorem ready_new (reader : Reader) (buf : Bytes) : Ready (.new reader buf) := fun _ => .inl rfl

/-- The situation `wholeMode` for a fresh parser. -/
theorem whole_new (reader : Reader) (buf : Bytes) (L F : Nat) (h1 : reader.OneChunk) (h2 : reader.pending.length ≤ buf.length)
    (h8 : 8 ≤ buf.length) (hl : L ≤ buf.length) (hf : 2 * reader.size + 2 ≤ F) : Inv wholeMode L F (.new reader buf) :=
  ⟨sync_new _ _, h1.clean, h8, Nat.zero_le _, hl, hf, trivial, h1, .inr ⟨rfl, h2⟩⟩

/-- The situation `streamMode` for a fresh parser. -/
theorem stream_new (ascii one : Bool) (reader : Reader) (buf : Bytes) (len L F : Nat) (hc : reader.Clean)
    (ha : ascii = true → (∀ c ∈ buf, Ascii c) ∧ ∀ c ∈ reader.pending, Ascii c) (ho : one = true → reader.OneChunk)
    (h8 : 8 ≤ buf.length) (hlen : len ≤ buf.length) (hl : L ≤ buf.length) (hf : 2 * reader.size + 2 ≤ F) :
    Inv (streamMode ascii one len) L F (.new reader buf) :=
  ⟨sync_new _ _, hc, h8, hlen, hl, hf, trivial, ha, ho⟩

/-- A fresh pool. -/
theorem holds_new {buffer : Bytes} {m : Nat} {p : Pool} (h : Verif.U8Pool.new buffer m = .ok p) :
    ∃ R : Room, R.max = m ∧ R.cap = p.data.length ∧ 4 * R.slots = p.desc.length ∧ Holds p R [] := by
  have hr := U8Pool.Rel.new h
  refine ⟨⟨_, _, _⟩, rfl, hr.cap.symm, hr.slots.symm, hr⟩

/-! ## Example documents -/

/-- ` [{"k": [1,true]}, "x"]` -/
def exArr : Val :=
  .arr [] (.cons [] (.obj [] (.cons [] [107] [] [32] (.arr [] (.cons [] (.atom [49]) []
    (.cons [] (.atom [116, 114, 117, 101]) [] .nil))) [] .nil)) []
    (.cons [32] (.atom [34, 120, 34]) [] .nil))

/-- `{"k" : {"x":1}}` -/
def exObj : Val :=
  .obj [] (.cons [] [107] [32] [32] (.obj [] (.cons [] [120] [] [] (.atom [49]) [] .nil)) [] .nil)

example : exArr.text = "[{\"k\": [1,true]}, \"x\"]".toUTF8.toList ∧ exObj.text = "{\"k\" : {\"x\":1}}".toUTF8.toList := by
  decide +kernel

theorem raw_char (c : Byte) (hp : PlainChar (Char.ofNat c.toNat)) (he : enc (Char.ofNat c.toNat) = [c]) :
    RawBody [c] := by
  have := RawBody.char _ [] hp .nil
  rwa [he] at this

theorem number_one : Number [49] :=
  ⟨[], [49], [], [], rfl, .inl rfl, .inr ⟨⟨by simp, by intro c hc; simp at hc; subst hc; unfold Digit; decide⟩, by decide⟩, .inl rfl, .inl rfl⟩

theorem raw_k : RawBody [107] := raw_char 107 (by unfold PlainChar; decide) (by decide)
theorem raw_x : RawBody [120] := raw_char 120 (by unfold PlainChar; decide) (by decide)

theorem exArr_meets (M : Mode) (L : Nat) (hL : 6 ≤ L) (hM : M.str [120]) : exArr.Meets (rules M L) := by
  have hn : Spaces [] := by intro c hc; simp at hc
  have hs : Spaces [32] := by intro c hc; simp at hc; subst hc; unfold Space; decide
  refine ⟨hn, hn, ⟨hn, hn, ⟨raw_k, ?_⟩, hn, hs, ⟨hn, hn, ?_, hn, hn, ?_, hn, trivial⟩, trivial, hn, trivial⟩, hn, hs, ?_, hn, trivial⟩
  · show 1 + 0 + 4 ≤ L; omega
  · exact .number _ number_one (by show 1 + 1 ≤ L; omega)
  · exact .true
  · exact .string [120] raw_x hM

theorem exObj_meets (M : Mode) (L : Nat) (hL : 6 ≤ L) (hM : M.head [32] [] [120] []) : exObj.Meets (rules M L) := by
  have hn : Spaces [] := by intro c hc; simp at hc
  have hs : Spaces [32] := by intro c hc; simp at hc; subst hc; unfold Space; decide
  refine ⟨hn, hn, ⟨raw_k, ?_⟩, hs, hs, ⟨hn, hn, ⟨raw_x, ?_⟩, hn, hn, ?_, trivial, hn, trivial⟩, hM, hn, trivial⟩
  · show 1 + 1 + 4 ≤ L; omega
  · show 1 + 0 + 4 ≤ L; omega
  · exact .number _ number_one (by show 1 + 1 ≤ L; omega)

/-- A pool with 10 entries and 88 bytes for names. -/
def exPool : Pool := ⟨10, 0, List.replicate 40 0, List.replicate 88 0⟩
def exRoom : Room := ⟨88, 10, 10⟩

theorem exPool_new : Verif.U8Pool.new (List.replicate 128 0) 10 = .ok exPool := by decide +kernel

theorem exPool_holds : Holds exPool exRoom [] := by
  have h := U8Pool.Rel.new exPool_new
  rw [List.length_replicate] at h
  exact h

/-! ## C31, C32: what is reported and consumed -/

/-- Where a successful `scan` ends: `n` bytes are consumed (the rest of the input is untouched), the client's state is
`b`, and the pool holds the stack `l`. -/
structure Ended {β : Type} (s : RJ) (n : Nat) (b : β) (R : Room) (l : List (Pos × Bytes)) (st : St β) : Prop where
  baton : st.baton = b
  moved : s.Moved st.rj n
  stack : Holds st.pool R l

/-- **C31 and C32, partial.** Full statement: for every buffer that is large enough for the tokens and every
chunking; it is false, see `C31_chunks`, `C31_final_number`. In the situations described by a mode: `scan` of a stream
of documents with watching callbacks succeeds, the calls of `find_action` and `find_end_action` are the events of
the documents in their order, and the whole input is consumed. -/
theorem C31_events_partial (M : Mode) (L F : Nat) (opt : Options) (hopt : opt.stopEarly = false) (R : Room)
    (l : List (Pos × Bytes)) (ds : Docs) (tail : Bytes) (st : St (List Event)) (hi : Inv M L F st.rj) (hrd : Ready st.rj)
    (hst : Holds st.pool R l) (hr : st.rj.rest = Docs.text ds tail) (hm : Docs.Meets (rules M L) ds tail)
    (hfit : R.Fits (names l) nameTop) (hfits : Docs.Fit R (nameTop :: names l) ds) :
    ∃ st', (∀ turns, ds.length + st.rj.rest.length + 1 ≤ turns → scan turns F watch opt st = (st', .ok ())) ∧
      Ended st.rj st.rj.rest.length (st.baton ++ Docs.events (nameTop :: names l) ds) R ((.top, nameTop) :: l) st' := by
  have h := scan_docs (watch_implements M L F) hopt tail l ds st hi hrd hst hfit hm hr
  rw [Docs.scan_observer nothing ds _ _ hfits, Docs.eventsBut_nothing] at h
  obtain ⟨st', h1, ⟨_, h2, h3⟩, h4⟩ := h
  exact ⟨st', h4, h1, h2, h3⟩

/-- **C31 and C32, partial** (see above): with `stop_early` exactly the first value is reported and consumed, with
the space before it. Nothing is assumed about what follows (but that a number ends there). -/
theorem C32_stop_early_partial (M : Mode) (L F : Nat) (opt : Options) (hopt : opt.stopEarly = true) (R : Room)
    (l : List (Pos × Bytes)) (b t : Bytes) (v : Val) (st : St (List Event)) (hi : Inv M L F st.rj) (hrd : Ready st.rj)
    (hst : Holds st.pool R l) (hr : st.rj.rest = b ++ (v.text ++ t)) (hb : Spaces b) (hv : v.Meets (rules M L))
    (hh : v.HeadMeets (rules M L) b) (he : Ends v t)
    (hfit : R.Fits (names l) nameTop) (hfits : v.Fit R (nameTop :: names l)) :
    ∃ st', (∀ turns, v.text.length + 2 ≤ turns → scan turns F watch opt st = (st', .ok ())) ∧
      Ended st.rj (b.length + v.text.length) (st.baton ++ v.events (nameTop :: names l)) R ((.top, nameTop) :: l) st' ∧
      st'.rj.rest = t := by
  have h := scan_first (watch_implements M L F) hopt b t v l st hi hrd hst hfit hb hv hh he hr
  rw [Val.scan_observer nothing v _ _ hfits, Val.eventsBut_nothing] at h
  obtain ⟨st', h1, ⟨_, h2, h3, _⟩, h4⟩ := h
  refine ⟨st', h4, ⟨h1, h2, h3⟩, ?_⟩
  rw [h2.rest, hr, ← List.append_assoc, ← List.length_append, List.drop_left]

/-- ` [{"k": [1,true]}, "x"] ` byte by byte into a buffer of eight bytes. -/
def exSt : St (List Event) := ⟨.new (oneByOne (32 :: (exArr.text ++ [32]))) (List.replicate 8 0), [], exPool⟩

theorem exSt_inv : Inv (streamMode false false 8) 8 100 exSt.rj :=
  stream_new false false _ _ 8 8 100 (by decide) (by simp) (by simp) (by decide) (by decide) (by decide) (by decide)

theorem exSt_meets : Docs.Meets (rules (streamMode false false 8) 8) [([32], exArr)] [32] :=
  ⟨by intro c hc; simp at hc; subst hc; unfold Space; decide, exArr_meets _ _ (by decide) (.inr (by decide)), trivial, trivial,
    by intro c hc; simp at hc; subst hc; unfold Space; decide⟩

theorem exArr_fit : Docs.Fit exRoom [nameTop] [([32], exArr)] := by
  refine ⟨⟨by decide, ⟨by decide, ⟨by decide, trivial, trivial, trivial⟩, trivial⟩, trivial, trivial⟩, trivial⟩

example : Inv (streamMode false false 8) 8 100 exSt.rj ∧ Ready exSt.rj ∧ Holds exSt.pool exRoom [] ∧
    exSt.rj.rest = Docs.text [([32], exArr)] [32] ∧ Docs.Meets (rules (streamMode false false 8) 8) [([32], exArr)] [32] ∧
    exRoom.Fits (names []) nameTop ∧ Docs.Fit exRoom [nameTop] [([32], exArr)] :=
  ⟨exSt_inv, ready_new _ _, exPool_holds, by decide, exSt_meets, by decide, exArr_fit⟩

/-- `{"k" : {"x":1}}]` in one piece, with `stop_early`. -/
def exSt1 : St (List Event) := ⟨.new [.data 123 (exObj.text.tail ++ [93])] (List.replicate 20 0), [], exPool⟩

theorem exSt1_inv : Inv wholeMode 6 100 exSt1.rj := whole_new _ _ 6 100 trivial (by decide) (by decide) (by decide) (by decide)

theorem exObj_fit : exObj.Fit exRoom [nameTop] := ⟨by decide, ⟨by decide, trivial, trivial⟩, trivial⟩

example : Inv wholeMode 6 100 exSt1.rj ∧ Ready exSt1.rj ∧ Holds exSt1.pool exRoom [] ∧ exSt1.rj.rest = [] ++ (exObj.text ++ [93]) ∧
    Spaces [] ∧ exObj.Meets (rules wholeMode 6) ∧ exObj.HeadMeets (rules wholeMode 6) [] ∧ Ends exObj [93] ∧
    exRoom.Fits (names []) nameTop ∧ exObj.Fit exRoom [nameTop] :=
  ⟨exSt1_inv, ready_new _ _, exPool_holds, by decide, by intro c hc; simp at hc, exObj_meets _ _ (by decide) trivial, trivial, trivial,
    by decide, exObj_fit⟩

/-- What comes out, step by step. -/
example : (scan 40 100 watch ⟨[], true⟩ exSt1).1.baton =
    [.start .object [nameTop], .start .none [[107], nameTop], .start .object [[107], nameTop],
      .start .none [[120], [107], nameTop], .start .atom [[120], [107], nameTop], .finish .none [[120], [107], nameTop],
      .finish .object [[107], nameTop], .finish .none [[107], nameTop], .finish .object [nameTop]] := by decide +kernel

/-- **C31, the false part.** `{"k" : {"x":1}}` in two pieces, cut behind the first two bytes: `scan` fails (because
`next_object_bytes` does, see `C17_object_chunks`), though its tokens fit in the buffer many times. -/
theorem C31_chunks : ∃ (reader : Reader) (buf : Bytes), reader.Clean ∧ reader.pending = exObj.text ∧ 40 ≤ buf.length ∧
    ∀ turns, (scan (turns + 2) 100 watch ⟨[], false⟩ ⟨.new reader buf, [], exPool⟩).2 = .err (.rjiter ⟨.wrongType, 2⟩) := by
  refine ⟨[.data 123 [34], .data 107 (exObj.text.drop 3)], List.replicate 40 0, by decide, by decide, by decide, ?_⟩
  intro turns
  rfl

/-- **C31, the false part.** A document that is a number and at the end of the input is an error. -/
theorem C31_final_number : ∃ (reader : Reader) (buf : Bytes), reader.Clean ∧ Number reader.pending ∧ 40 ≤ buf.length ∧
    ∀ turns, (scan (turns + 2) 100 watch ⟨[], false⟩ ⟨.new reader buf, [], exPool⟩).2 = .err (.unhandledPeek 49 1) := by
  refine ⟨[.data 49 []], List.replicate 40 0, by decide, number_one, by decide, ?_⟩
  intro turns
  rfl

/-! ## C36: values consumed by the client -/

/-- **C36, partial** as C31: the callbacks consume the values of the selected events; `scan` goes on behind
each of them and reports nothing from inside. -/
theorem C36_consumed_partial (M : Mode) (L F : Nat) (opt : Options) (hopt : opt.stopEarly = false) (R : Room)
    (sel : Selection) (act : Action (List Event)) (hact : Consumes M L F sel act)
    (l : List (Pos × Bytes)) (ds : Docs) (tail : Bytes) (st : St (List Event)) (hi : Inv M L F st.rj) (hrd : Ready st.rj)
    (hst : Holds st.pool R l) (hr : st.rj.rest = Docs.text ds tail) (hm : Docs.Meets (rules M L) ds tail)
    (hfit : R.Fits (names l) nameTop) (hfits : Docs.Fit R (nameTop :: names l) ds) :
    ∃ st', (∀ turns, ds.length + st.rj.rest.length + 1 ≤ turns → scan turns F (observe sel act) opt st = (st', .ok ())) ∧
      Ended st.rj st.rj.rest.length (st.baton ++ Docs.eventsBut sel (nameTop :: names l) ds) R ((.top, nameTop) :: l) st' := by
  have h := scan_docs (observe_implements hact) hopt tail l ds st hi hrd hst hfit hm hr
  rw [Docs.scan_observer sel ds _ _ hfits] at h
  obtain ⟨st', h1, ⟨_, h2, h3⟩, h4⟩ := h
  exact ⟨st', h4, h1, h2, h3⟩

/-- An action that eats an atom: `peek` and the skipping of `scan` itself. -/
def eatAtom (F : Nat) : Action (List Event) := fun s log =>
  match s.peek F with
  | (s1, .ok c) =>
    match skipBasic F c s1 with
    | (s2, .ok ()) => ((s2, log), .op .valueIsConsumed)
    | (s2, _) => ((s2, log), .op (.error "not an atom"))
  | (s1, _) => ((s1, log), .op (.error "nothing there"))

/-- All atoms, but not those at `keep`. -/
def atomsBut (keep : List Bytes) : Selection := fun p path => p = .atom ∧ path ≠ keep

theorem eatAtom_consumes (M : Mode) (L F : Nat) (keep : List Bytes) : Consumes M L F (atomsBut keep) (eatAtom F) := by
  intro p path v s ws t log hs hi hc
  simp only [atomsBut, ne_eq, decide_not, Bool.decide_and, Bool.and_eq_true, decide_eq_true_eq] at hs
  obtain ⟨rfl, _⟩ := hs
  obtain rfl := hc.noSpace (by decide)
  cases v with
  | arr w is => exact absurd hc.starts (by simp [Starts])
  | obj w ms => exact absurd hc.starts (by simp [Starts])
  | atom tok =>
    have ha : IsAtom (fun n => n.length + 1 ≤ L) M.str tok := hc.meets
    obtain ⟨c, r, e, h1, h2, _⟩ := atom_first ha
    have hr := hc.rest
    simp only [List.nil_append, Val.text] at hr
    obtain ⟨s1, e1, hi1, hm1⟩ := hi.peek (ws := []) (c := c) (t := r ++ t) (by rw [hr, e]; rfl) (by intro c hc; simp at hc) h1 h2
    have hr1 : s1.rest = tok ++ t := by rw [hm1.rest, hr]; rfl
    obtain ⟨s2, e2, hi2, hm2, hj2⟩ := hi1.skip ha e hc.ends hr1
    refine ⟨s2, ?_, hi2, ?_, hj2⟩
    · simp [eatAtom, e1, e2]
    · have := hm1.trans hm2
      simpa [Val.text] using this

/-- The hypotheses of C36 on the example: all atoms consumed but the first item of the inner array. -/
example : Consumes (streamMode false false 8) 8 100 (atomsBut []) (eatAtom 100) ∧
    Inv (streamMode false false 8) 8 100 exSt.rj ∧ Docs.Meets (rules (streamMode false false 8) 8) [([32], exArr)] [32] :=
  ⟨eatAtom_consumes _ _ _ _, exSt_inv, exSt_meets⟩

/-- With an action that consumes the value of the key `k`: nothing from inside it is reported, its end is. -/
example : Docs.eventsBut (fun p path => p = .none ∧ path.head? = some [107]) [nameTop] [([], exObj)] =
    [.start .object [nameTop], .start .none [[107], nameTop], .finish .none [[107], nameTop], .finish .object [nameTop]] := by
  decide

/-- **C36, C37, partial** as C31, for any callbacks: whatever they do to their own state, if an action that
answers `None` leaves the parser in front of the value and one that answers `ValueIsConsumed` leaves it behind the
value (`Implements`), then the calls are those that the documents prescribe (`Docs.scan`), and the scan ends with the
client's state after the last of them, or with the error of the call that failed. -/
theorem C36_any_callbacks_partial {β : Type} (M : Mode) (L F : Nat) (cb : Callbacks β) (H : Handler β)
    (hI : Implements cb H (Inv M L F) (rules M L)) (opt : Options) (hopt : opt.stopEarly = false) (R : Room)
    (l : List (Pos × Bytes)) (ds : Docs) (tail : Bytes) (st : St β) (hi : Inv M L F st.rj) (hrd : Ready st.rj)
    (hst : Holds st.pool R l) (hr : st.rj.rest = Docs.text ds tail) (hm : Docs.Meets (rules M L) ds tail)
    (hfit : R.Fits (names l) nameTop) :
    ∃ st' r, (∀ turns, ds.length + st.rj.rest.length + 1 ≤ turns → scan turns F cb opt st = (st', r)) ∧
      match Docs.scan H R (nameTop :: names l) ds st.baton with
      | .done b => r = .ok () ∧ Ended st.rj st.rj.rest.length b R ((.top, nameTop) :: l) st'
      | .stop b (.action m) => r = .err (.action m st'.rj.currentIndex) ∧ st'.baton = b
      | .stop b (.deep n) => r = .err (.maxNesting st'.rj.currentIndex n) ∧ st'.baton = b
      | .stop b .keyTooLong => r = .err (.internal st'.rj.currentIndex "Failed to push key to context pool") ∧ st'.baton = b := by
  have h := scan_docs hI hopt tail l ds st hi hrd hst hfit hm hr
  cases hs : Docs.scan H R (nameTop :: names l) ds st.baton with
  | done b =>
    rw [hs] at h
    obtain ⟨st', h1, ⟨_, h2, h3⟩, h4⟩ := h
    exact ⟨st', _, h4, rfl, h1, h2, h3⟩
  | stop b f =>
    rw [hs] at h
    obtain ⟨st', e, h1, h2, h3⟩ := h
    refine ⟨st', _, h3, ?_⟩
    cases f <;> exact ⟨congrArg _ h2, h1⟩

/-- Callbacks that fail at the end of the first object. -/
def failAtEnd : Callbacks (List Event) where
  find p c log := (log ++ [.start p c.path], none)
  findEnd p c log := (log ++ [.finish p c.path], if p = .object then some (fun log => (log, some "stop")) else none)

/-- The corresponding handler. -/
def failAtEndH : Handler (List Event) where
  start p path _ log := (log ++ [.start p path], .none)
  finish p path log := (log ++ [.finish p path], if p = .object then some "stop" else none)

theorem failAtEnd_implements (M : Mode) (L F : Nat) : Implements failAtEnd failAtEndH (Inv M L F) (rules M L) := by
  refine ⟨fun _ _ _ _ _ _ _ _ _ _ _ _ _ _ _ => rfl, ?_⟩
  intro p path b
  cases p <;> rfl

example : Implements failAtEnd failAtEndH (Inv wholeMode 6 100) (rules wholeMode 6) ∧
    exObj.scan failAtEndH exRoom [nameTop] [] = .stop
      [.start .object [nameTop], .start .none [[107], nameTop], .start .object [[107], nameTop],
      .start .none [[120], [107], nameTop], .start .atom [[120], [107], nameTop], .finish .none [[120], [107], nameTop],
      .finish .object [[107], nameTop]] (.action "stop") :=
  ⟨failAtEnd_implements _ _ _, by decide⟩

/-! ## C33: the context stack -/

/-- **C33 is false**: whenever `scan` succeeds on documents (here with watching callbacks), the pool holds one more
entry than before, the name `#top`. -/
theorem C33_top_is_left (M : Mode) (L F : Nat) (opt : Options) (hopt : opt.stopEarly = false) (R : Room)
    (l : List (Pos × Bytes)) (ds : Docs) (tail : Bytes) (st : St (List Event)) (hi : Inv M L F st.rj) (hrd : Ready st.rj)
    (hst : Holds st.pool R l) (hr : st.rj.rest = Docs.text ds tail) (hm : Docs.Meets (rules M L) ds tail)
    (hfit : R.Fits (names l) nameTop) (hfits : Docs.Fit R (nameTop :: names l) ds) :
    ∃ st', (∀ turns, ds.length + st.rj.rest.length + 1 ≤ turns → scan turns F watch opt st = (st', .ok ())) ∧
      st'.pool.len = st.pool.len + 1 := by
  obtain ⟨st', h1, h2⟩ := C31_events_partial M L F opt hopt R l ds tail st hi hrd hst hr hm hfit hfits
  exact ⟨st', h1, by rw [h2.stack.len, hst.len]; rfl⟩

/-- **C33, partial.** Full statement: the pool holds what it held before. Proved: it holds that, and `#top` on top of
it, when `scan` succeeds, whatever the callbacks (as long as they do what they announce). -/
theorem C33_rest_is_kept_partial {β : Type} (M : Mode) (L F : Nat) (cb : Callbacks β) (H : Handler β)
    (hI : Implements cb H (Inv M L F) (rules M L)) (opt : Options) (hopt : opt.stopEarly = false) (R : Room)
    (l : List (Pos × Bytes)) (ds : Docs) (tail : Bytes) (st : St β) (hi : Inv M L F st.rj) (hrd : Ready st.rj)
    (hst : Holds st.pool R l) (hr : st.rj.rest = Docs.text ds tail) (hm : Docs.Meets (rules M L) ds tail)
    (hfit : R.Fits (names l) nameTop) (turns : Nat) (ht : ds.length + st.rj.rest.length + 1 ≤ turns) (st' : St β)
    (e : scan turns F cb opt st = (st', .ok ())) :
    ∃ p' r, st'.pool.popAssoc posLayout = (p', .ok (some r)) ∧ r.2 = nameTop ∧ Holds p' R l := by
  obtain ⟨st2, r, h1, h2⟩ := C36_any_callbacks_partial M L F cb H hI opt hopt R l ds tail st hi hrd hst hr hm hfit
  rw [h1 turns ht] at e
  simp only [Prod.mk.injEq] at e
  obtain ⟨rfl, rfl⟩ := e
  have hold : Holds st2.pool R ((.top, nameTop) :: l) := by
    cases hs : Docs.scan H R (nameTop :: names l) ds st.baton with
    | done b => rw [hs] at h2; exact h2.2.stack
    | stop b f => rw [hs] at h2; cases f <;> simp at h2
  exact hold.popName

/-- A consequence of C33 being false: once a pool holds as many entries as it can, `scan` fails on it at once, without
reading anything, on any input. -/
theorem C33_pool_used_up {β : Type} (turns F : Nat) (cb : Callbacks β) (opt : Options) (R : Room) (l : List (Pos × Bytes))
    (st : St β) (hst : Holds st.pool R l) (hfull : ¬ R.Fits (names l) nameTop) :
    ∃ p', scan turns F cb opt st = ({ st with pool := p' }, .err (.maxNesting st.rj.currentIndex 0)) := by
  obtain ⟨p', er, e, _, _⟩ := hst.push_full .top nameTop hfull
  refine ⟨p', ?_⟩
  unfold scan
  rw [e]

/-- A pool with one entry, after the first `scan`: the second fails. -/
example : ∃ p : Pool, Verif.U8Pool.new (List.replicate 30 0) 1 = .ok p ∧
    (scan 40 100 watch ⟨[], true⟩ ⟨.new [.data 91 [93, 91, 93]] (List.replicate 8 0), [], p⟩).2 = .err (.maxNesting 0 1) ∧
    (scan 40 100 watch ⟨[], true⟩ ⟨.new [.data 49 [32, 49, 32]] (List.replicate 8 0), [], p⟩).2 = .ok () ∧
    (scan 40 100 watch ⟨[], true⟩
      (scan 40 100 watch ⟨[], true⟩ ⟨.new [.data 49 [32, 49, 32]] (List.replicate 8 0), [], p⟩).1).2 = .err (.maxNesting 1 0) := by
  refine ⟨⟨1, 0, List.replicate 4 0, List.replicate 26 0⟩, ?_⟩
  decide +kernel

/-! ## C35: nesting -/

/-- **C35, partial** as C31; and there must be bytes for the names. A document that nests at most as deep as the pool
has entries is scanned to the end, one that nests deeper is an error that says so (with the limit). -/
theorem C35_depth_partial (M : Mode) (L F : Nat) (opt : Options) (hopt : opt.stopEarly = true) (R : Room) (hR : R.max ≤ R.slots)
    (l : List (Pos × Bytes)) (b t : Bytes) (v : Val) (st : St (List Event)) (hi : Inv M L F st.rj) (hrd : Ready st.rj)
    (hst : Holds st.pool R l) (hr : st.rj.rest = b ++ (v.text ++ t)) (hb : Spaces b) (hv : v.Meets (rules M L))
    (hh : v.HeadMeets (rules M L) b) (he : Ends v t)
    (hfit : R.Fits (names l) nameTop) (hwide : v.Wide R (nameTop :: names l)) :
    ∃ st', (l.length + 1 + v.depth ≤ R.max → ∀ turns, v.text.length + 2 ≤ turns → scan turns F watch opt st = (st', .ok ())) ∧
      (R.max < l.length + 1 + v.depth → ∀ turns, v.text.length + 2 ≤ turns →
        scan turns F watch opt st = (st', .err (.maxNesting st'.rj.currentIndex R.max))) := by
  have h := scan_first (watch_implements M L F) hopt b t v l st hi hrd hst hfit hb hv hh he hr
  have hlen : (nameTop :: names l).length ≤ R.max := by
    have := hfit.1
    simp only [List.length_cons]; omega
  have hdeep := Val.deepOnly (R := R) nothing hR v (nameTop :: names l) hwide hlen st.baton
  have hiff := v.fit_iff hR (nameTop :: names l) hwide hlen
  simp only [List.length_cons, List.length_map] at hiff
  cases hs : v.scan (observer nothing) R (nameTop :: names l) st.baton with
  | done b' =>
    have := hiff.mp (v.fit_of_done _ _ _ hs)
    rw [hs] at h
    obtain ⟨st', h1, _, h4⟩ := h
    exact ⟨st', fun _ => h4, fun h => by omega⟩
  | stop b' f =>
    rw [hs] at h hdeep
    obtain ⟨st', e, h1, h2, h3⟩ := h
    refine ⟨st', fun hle => ?_, fun _ => ?_⟩
    · have := Val.scan_observer nothing v _ st.baton (hiff.mpr hle)
      rw [hs] at this
      simp at this
    · rw [hdeep] at h2
      rw [show e = .maxNesting st'.rj.currentIndex R.max from h2] at h3
      exact h3

/-- The hypotheses on the example, with a pool of three entries (then the depth suffices) and one of two. -/
example : Inv wholeMode 6 100 exSt1.rj ∧ exObj.depth = 2 ∧ exObj.Wide ⟨26, 3, 3⟩ [nameTop] ∧ exObj.Wide ⟨26, 2, 2⟩ [nameTop] ∧
    (∃ p, Holds p ⟨26, 3, 3⟩ []) ∧
    (scan 40 100 watch ⟨[], true⟩ ⟨exSt1.rj, [], ⟨3, 0, List.replicate 12 0, List.replicate 26 0⟩⟩).2 = .ok () ∧
    (scan 40 100 watch ⟨[], true⟩ ⟨exSt1.rj, [], ⟨2, 0, List.replicate 8 0, List.replicate 26 0⟩⟩).2 = .err (.maxNesting 12 2) := by
  have hw : ∀ m, exObj.Wide ⟨26, m, m⟩ [nameTop] := fun m =>
    ⟨by unfold Room.HasBytes; simp [usedNames, nameTop], ⟨by unfold Room.HasBytes; simp [usedNames, nameTop], trivial, trivial⟩, trivial⟩
  refine ⟨exSt1_inv, by decide, hw 3, hw 2, ⟨⟨3, 0, List.replicate 12 0, List.replicate 26 0⟩, ?_⟩, ?_⟩
  · have h := U8Pool.Rel.new (buffer := List.replicate 38 0) (m := 3) (p := ⟨3, 0, List.replicate 12 0, List.replicate 26 0⟩) (by decide +kernel)
    rw [List.length_replicate] at h
    exact h
  · decide +kernel

end Verif.Scan
