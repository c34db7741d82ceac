import Verif.Scan.Bad
import Verif.Scan.Props

/-!
# Properties C40, C55 of `scan_json`

As in `Props.lean`, the theorems hold in the situations described by a `Mode`.
-/

namespace Verif.Scan

open Verif.RJiter
open Verif.U8Pool (Pool)

variable {β : Type}

/-! ## C40: SSE tokens -/

/-- **C40, partial.** Full statement: tokens between top-level values are skipped and produce no event, for all tokens and
chunkings; inside of objects and nested arrays they are an error. It is false, see `C40_reported`, `C40_value_like`,
`C40_chunks`, `C40_empty`.

In the situations described by a mode, for tokens that cannot be mistaken for values and with space (or `loose`) between a
token and an object with members: `scan` of a feed does with the documents what the handler says, and skips the tokens and
the arrays with a token; what happens to the client's state there are the marks `K`: a token is reported like an atom. -/
theorem C40_tokens_partial (M : Mode) (L F : Nat) (cb : Callbacks β) (H : Handler β) (K : Marks β) (opt : Options) (R : Room)
    (hI : Implements cb H (Inv M L F) (rules M L)) (hopt : opt.stopEarly = false) (hL : ∀ u ∈ opt.sseTokens, u.length ≤ L)
    (hq : Silent cb .atom [nameTop] K.token) (hqa : Silent cb .array [nameTop] K.array) (hqi : Silent cb .atom [nameArray, nameTop] K.inside)
    (fs : Feed) (tail : Bytes) (st : St β) (hi : Inv M L F st.rj) (hrd : Ready st.rj) (hst : Holds st.pool R [])
    (hfit : R.Fits [] nameTop) (hfit2 : R.Fits [nameTop] nameArray)
    (hm : Feed.Meets (rules M L) opt.sseTokens M.loose True tail false fs) (ht : Spaces tail) (hr : st.rj.rest = Feed.text fs tail) :
    match Feed.scan H K R [nameTop] fs st.baton with
    | .done b => ∃ st', Ended st.rj st.rj.rest.length b R [(.top, nameTop)] st' ∧
        ∀ n, fs.length + st.rj.rest.length + 1 ≤ n → scan n F cb opt st = (st', .ok ())
    | .stop b f => ∃ st' e, st'.baton = b ∧ Faults f st' e ∧
        ∀ n, fs.length + st.rj.rest.length + 1 ≤ n → scan n F cb opt st = (st', .err e) := by
  have h := scan_feed (R := R) hI hopt hL tail [] hq (boxes := True) (fun _ => ⟨rfl, hfit2, hqa, hqi⟩) fs st hi hrd hst hfit hm ht hr
  simp only [List.map_nil] at h
  cases hsc : Feed.scan H K R [nameTop] fs st.baton with
  | done b =>
    rw [hsc] at h
    obtain ⟨st', h1, ⟨_, h2, h3⟩, h4⟩ := h
    exact ⟨st', ⟨h1, h2, h3⟩, h4⟩
  | stop b f => rw [hsc] at h; exact h

/-- **C40, partial** (see above): if the client has no actions for top-level atoms and arrays, the tokens leave no trace: its
state becomes what it becomes by the documents alone. -/
theorem C40_silent_partial (M : Mode) (L F : Nat) (cb : Callbacks β) (H : Handler β) (opt : Options) (R : Room)
    (hI : Implements cb H (Inv M L F) (rules M L)) (hopt : opt.stopEarly = false) (hL : ∀ u ∈ opt.sseTokens, u.length ≤ L)
    (hq : ∀ b, cb.find .atom ⟨[nameTop], 1⟩ b = (b, none)) (hqa : ∀ b, cb.find .array ⟨[nameTop], 1⟩ b = (b, none))
    (hqi : ∀ b, cb.find .atom ⟨[nameArray, nameTop], 2⟩ b = (b, none)) (hqe : ∀ b, cb.findEnd .array ⟨[nameTop], 1⟩ b = (b, none))
    (fs : Feed) (tail : Bytes) (st : St β) (hi : Inv M L F st.rj) (hrd : Ready st.rj) (hst : Holds st.pool R [])
    (hfit : R.Fits [] nameTop) (hfit2 : R.Fits [nameTop] nameArray)
    (hm : Feed.Meets (rules M L) opt.sseTokens M.loose True tail false fs) (ht : Spaces tail) (hr : st.rj.rest = Feed.text fs tail)
    (b : β) (hd : Docs.scan H R [nameTop] fs.docs st.baton = .done b) :
    ∃ st', Ended st.rj st.rj.rest.length b R [(.top, nameTop)] st' ∧
      ∀ n, fs.length + st.rj.rest.length + 1 ≤ n → scan n F cb opt st = (st', .ok ()) := by
  have h := C40_tokens_partial M L F cb H .nothing opt R hI hopt hL (fun b s => by simp [hq, Marks.nothing])
    (fun b s => by simp [hqa, Marks.nothing]) (fun b s => by simp [hqi, Marks.nothing]) fs tail st hi hrd hst hfit hfit2 hm ht hr
  rw [Feed.scan_docs H R [nameTop] (fun b => by
    have := hI.finish .array [nameTop] b
    simp only [List.length_cons, List.length_nil, Nat.zero_add, hqe] at this
    simp [Handler.end, ← this]) fs, hd] at h
  exact h

mutual
theorem Bad.Clear.of_false {p skips : Prop} {n : Nat} : ∀ {x : Bad}, x.Clear False skips n → x.Clear p skips n
  | .value _, h => fun hs => (h hs).elim
  | .arr _ is, h => BadItems.Clear.of_false (x := is) h
  | .obj _ ms, h => BadMembers.Clear.of_false (x := ms) h
  | .key _ _, _ => trivial
theorem BadItems.Clear.of_false {p : Prop} {n : Nat} : ∀ {x : BadItems}, x.Clear False n → x.Clear p n
  | .here _ x, h => Bad.Clear.of_false (x := x) h
  | .later _ _ _ rest, h => ItemsRest.Clear.of_false (x := rest) h
theorem ItemsRest.Clear.of_false {p : Prop} {n : Nat} : ∀ {x : ItemsRest}, x.Clear False n → x.Clear p n
  | .sep _, _ => trivial
  | .comma is, h => BadItems.Clear.of_false (x := is) h
theorem BadMembers.Clear.of_false {p : Prop} {n : Nat} : ∀ {x : BadMembers}, x.Clear False n → x.Clear p n
  | .here _ _ _ _ x, h => Bad.Clear.of_false (x := x) h
  | .later _ _ _ _ _ _ rest, h => MembersRest.Clear.of_false (x := rest) h
theorem MembersRest.Clear.of_false {p : Prop} {n : Nat} : ∀ {x : MembersRest}, x.Clear False n → x.Clear p n
  | .sep _, _ => trivial
  | .key _ _, _ => trivial
  | .comma ms, h => BadMembers.Clear.of_false (x := ms) h
end

/-- **C40, partial** (see above), the second half: a byte that starts no value, in an object or in a nested array, is an
error at its position, whatever the tokens are (`Clear False`: the byte is not where tokens are skipped). -/
theorem C40_nested_partial (M : Mode) (L F : Nat) (cb : Callbacks β) (O : Observer β) (opt : Options) (R : Room)
    (hW : Watches cb O) (hopt : opt.stopEarly = false) (hL : ∀ u ∈ opt.sseTokens, u.length ≤ L)
    (b0 : Bytes) (x : Bad) (t : Bytes) (st : St β) (hi : Inv M L F st.rj) (hrd : Ready st.rj) (hst : Holds st.pool R [])
    (hfit : R.Fits [] nameTop) (hb : Spaces b0) (hx : x.Meets (rules M L) (spot M L t)) (hh : x.HeadMeets (rules M L) b0)
    (hval : x.bad.2 = true) (h34 : x.bad.1 ≠ 34) (hclear : x.Clear False True 1) (hr : st.rj.rest = b0 ++ (x.lead ++ x.bad.1 :: t))
    (b : β) (hsc : x.scan O R [nameTop] st.baton = .done b) :
    ∃ st', st'.baton = b ∧ ∀ n, st.rj.rest.length + 1 ≤ n →
      scan n F cb opt st = (st', .err (.unhandledPeek x.bad.1 (st.rj.currentIndex + (b0.length + x.lead.length)))) := by
  obtain ⟨p', r, e, hp⟩ := hst.push .top nameTop hfit
  obtain ⟨s', c, r', ep, hc, hi', hm', hsafe⟩ := hi.peekBad hx hb hh (.inr (.inr hrd)) hr
  have hr' : s'.rest = c :: r' := by rw [← hc]; exact moved_rest hm' hr
  have hclear' : x.Clear (Foreign opt.sseTokens (x.bad.1 :: t))
      (Pos.top = .top ∨ ((Pos.top = .arrayBegin ∨ Pos.top = .arrayMiddle) ∧ ([] : List (Pos × Bytes)).length + 1 = 2))
      (([] : List (Pos × Bytes)).length + 1) := by
    have := Bad.Clear.of_false (p := Foreign opt.sseTokens (x.bad.1 :: t)) hclear
    cases x with
    | value c => exact fun _ => this trivial
    | arr w is => exact this
    | obj w ms => exact this
    | key w c => exact this
  have hbad := badRuns (F := F) (M := M) (R := R) hW hL x t hx ⟨s', st.baton, p'⟩ .top nameTop [] c r' hi' hp hc hr' hsafe hclear'
  have htt := turn_top (F := F) (opt := opt) (cb := cb) (st := { st with pool := p' }) ep
  simp only at htt
  rw [← htt] at hbad
  simp only [List.map_nil] at hbad
  rw [hsc] at hbad
  obtain ⟨st3, e3, k, hk, hlead, h12, h13⟩ := hbad
  refine ⟨st3, h12, ?_⟩
  intro n hn
  have hidx := hm'.index
  simp only [Reports, hval] at h13
  obtain ⟨j, h13, hj⟩ := h13
  rw [hj h34, hidx, Nat.add_zero] at h13
  unfold scan
  rw [e]
  simp only
  rw [hr] at hn
  simp only [List.length_append, List.length_cons] at hn
  rw [show n = (n - 1) + 1 by omega, mainLoop_go (by simp [hopt]), show n - 1 = (n - 1 - k) + k by omega, hlead]
  simp only [resume]
  rw [h13, Nat.add_assoc]

/-! ### Example -/

theorem watch_silent (p : Pseudo) (path : List Bytes) : Silent watch p path (fun log => log ++ [.start p path]) := by
  intro b s
  simp [watch, observe, nothing]

/-- What becomes of the log of `watch` at tokens. -/
def watchMarks : Marks (List Event) :=
  ⟨fun log => log ++ [.start .atom [nameTop]], fun log => log ++ [.start .array [nameTop]], fun log => log ++ [.start .atom [nameArray, nameTop]]⟩

/-- `data:` -/
def exData : Bytes := [100, 97, 116, 97, 58]
/-- `DONE` -/
def exDone : Bytes := [68, 79, 78, 69]

/-- `data: {"k" : {"x":1}}⏎data: [DONE]⏎` -/
def exFeed : Feed := [([], .token exData), ([32], .doc exObj), ([10], .token exData), ([32], .boxed [] exDone [])]

def exFeedSt : St (List Event) := ⟨.new [.data 100 (Feed.text exFeed [10]).tail] (List.replicate 40 0), [], exPool⟩

example : Feed.text exFeed [10] = "data: {\"k\" : {\"x\":1}}\ndata: [DONE]\n".toUTF8.toList := by decide +kernel

theorem alien_d : Alien 100 ∧ Alien 68 := by unfold Alien Space Digit; decide

theorem exFeed_meets : Feed.Meets (rules wholeMode 6) [exData, exDone] wholeMode.loose True [10] false exFeed := by
  have h10 : Spaces [10] := by intro c hc; simp at hc; subst hc; unfold Space; decide
  have h32 : Spaces [32] := by intro c hc; simp at hc; subst hc; unfold Space; decide
  have h0 : Spaces [] := by intro c hc; simp at hc
  refine ⟨h0, ⟨_, _, rfl, alien_d.1⟩, ⟨[], [exDone], rfl, by simp, by simp⟩, h32, exObj_meets _ _ (by decide) trivial, trivial, trivial,
    fun _ => .inl trivial, h10, ⟨_, _, rfl, alien_d.1⟩, ⟨[], [exDone], rfl, by simp, by simp⟩, trivial, h32, h0, h0,
    ⟨_, _, rfl, alien_d.2, by decide⟩, ⟨[exData], [], rfl, ?_, by simp⟩, trivial⟩
  intro u hu
  simp only [List.mem_cons, List.not_mem_nil, or_false] at hu
  subst hu
  decide

example : Implements watch (observer nothing) (Inv wholeMode 6 100) (rules wholeMode 6) ∧
    (∀ u ∈ [exData, exDone], u.length ≤ 6) ∧ Silent watch .atom [nameTop] watchMarks.token ∧
    Silent watch .array [nameTop] watchMarks.array ∧ Silent watch .atom [nameArray, nameTop] watchMarks.inside ∧
    Inv wholeMode 6 100 exFeedSt.rj ∧ Ready exFeedSt.rj ∧ Holds exFeedSt.pool exRoom [] ∧ exRoom.Fits [] nameTop ∧
    exRoom.Fits [nameTop] nameArray ∧ Feed.Meets (rules wholeMode 6) [exData, exDone] wholeMode.loose True [10] false exFeed ∧
    exFeedSt.rj.rest = Feed.text exFeed [10] :=
  ⟨watch_implements _ _ _, by decide, watch_silent _ _, watch_silent _ _, watch_silent _ _,
    whole_new _ _ 6 100 trivial (by decide) (by decide) (by decide) (by decide), ready_new _ _, exPool_holds, by decide, by decide,
    exFeed_meets, by decide⟩

/-- A client without any actions for top-level atoms and arrays, that counts keys. -/
def keyCounter : Callbacks Nat := ⟨fun p _ n => (if p = .none then n + 1 else n, none), fun _ _ n => (n, none)⟩
def keyCount : Handler Nat := ⟨fun p _ _ n => (if p = .none then n + 1 else n, .none), fun _ _ n => (n, none)⟩

example : Implements keyCounter keyCount (Inv wholeMode 6 100) (rules wholeMode 6) ∧
    (∀ b, keyCounter.find .atom ⟨[nameTop], 1⟩ b = (b, none)) ∧ (∀ b, keyCounter.find .array ⟨[nameTop], 1⟩ b = (b, none)) ∧
    (∀ b, keyCounter.find .atom ⟨[nameArray, nameTop], 2⟩ b = (b, none)) ∧
    (∀ b, keyCounter.findEnd .array ⟨[nameTop], 1⟩ b = (b, none)) ∧ Docs.scan keyCount exRoom [nameTop] exFeed.docs 0 = .done 2 :=
  ⟨⟨fun _ _ _ _ _ _ _ _ _ _ _ _ _ _ _ => rfl, fun _ _ _ => rfl⟩, fun _ => rfl, fun _ => rfl, fun _ => rfl, fun _ => rfl,
    by decide +kernel⟩

/-- What comes out, step by step. -/
example : scan 60 100 watch ⟨[exData, exDone], false⟩ exFeedSt =
    ((scan 60 100 watch ⟨[exData, exDone], false⟩ exFeedSt).1, .ok ()) ∧
    (scan 60 100 watch ⟨[exData, exDone], false⟩ exFeedSt).1.baton =
      [.start .atom [nameTop]] ++ exObj.events [nameTop] ++
      [.start .atom [nameTop], .start .array [nameTop], .start .atom [nameArray, nameTop], .finish .array [nameTop]] := by
  decide +kernel

/-! ### The false parts -/

/-- **C40, a false part.** A token is reported like an atom: the client is asked for an action. -/
theorem C40_reported : ∃ (reader : Reader) (buf : Bytes), reader.Clean ∧ reader.pending = exData ∧
    (scan 10 100 watch ⟨[exData], false⟩ ⟨.new reader buf, [], exPool⟩).2 = .ok () ∧
    (scan 10 100 watch ⟨[exData], false⟩ ⟨.new reader buf, [], exPool⟩).1.baton = [.start .atom [nameTop]] := by
  refine ⟨[.data 100 [97, 116, 97, 58]], List.replicate 40 0, by decide, by decide, ?_⟩
  decide +kernel

/-- **C40, a false part.** Tokens that start like a value are not skipped: `[DONE]`. -/
theorem C40_value_like : ∃ (reader : Reader) (buf : Bytes), reader.Clean ∧ reader.pending = 91 :: (exDone ++ [93]) ∧ 40 ≤ buf.length ∧
    ∀ turns, (scan (turns + 3) 100 watch ⟨[91 :: (exDone ++ [93])], false⟩ ⟨.new reader buf, [], exPool⟩).2 =
      .err (.unhandledPeek 68 1) := by
  refine ⟨[.data 91 (exDone ++ [93])], List.replicate 40 0, by decide, by decide, by decide, ?_⟩
  intro turns
  rfl

/-- **C40, a false part.** `data:{"x":1}` in two pieces, cut behind the first quote: though its tokens fit in the buffer many
times, `scan` fails. -/
theorem C40_chunks : ∃ (reader : Reader) (buf : Bytes), reader.Clean ∧ reader.pending = exData ++ [123, 34, 120, 34, 58, 49, 125] ∧
    40 ≤ buf.length ∧
    ∀ turns, ∃ er, (scan (turns + 4) 100 watch ⟨[exData], false⟩ ⟨.new reader buf, [], exPool⟩).2 = .err (.rjiter er) := by
  refine ⟨[.data 100 (exData.tail ++ [123, 34]), .data 120 [34, 58, 49, 125]], List.replicate 40 0, by decide, by decide, by decide, ?_⟩
  intro turns
  exact ⟨_, rfl⟩

/-- Callbacks without any action. -/
def idle : Callbacks Unit := ⟨fun _ _ b => (b, none), fun _ _ b => (b, none)⟩

/-- The state behind the first turn of `C40_empty`. -/
def exEmpty : St Unit := (turn 10 idle ⟨[[]], false⟩ .top
  ⟨.new [.data 120 []] (List.replicate 8 0), (), (exPool.pushAssoc posLayout [Pos.top.byte] nameTop).1⟩).1

/-- **C40, a false part.** If the empty token is in the list, `scan` does not end in front of a byte that starts no value. -/
theorem C40_empty : ∃ (reader : Reader) (buf : Bytes), reader.Clean ∧ reader.pending = [120] ∧
    ∀ turns, (scan turns 10 idle ⟨[[]], false⟩ ⟨.new reader buf, (), exPool⟩).2 = .diverge := by
  refine ⟨[.data 120 []], List.replicate 8 0, by decide, by decide, ?_⟩
  have hloop : ∀ n, (mainLoop 10 idle ⟨[[]], false⟩ n true .top exEmpty).2 = .diverge := by
    intro n
    induction n with
    | zero => rfl
    | succ n ih =>
      have h : turn 10 idle ⟨[[]], false⟩ .top exEmpty = (exEmpty, .next .top) := by decide +kernel
      rw [mainLoop_go (by simp), h]
      exact ih
  intro turns
  cases turns with
  | zero => rfl
  | succ n =>
    have h0 : scan (n + 1) 10 idle ⟨[[]], false⟩ ⟨.new [.data 120 []] (List.replicate 8 0), (), exPool⟩ =
        mainLoop 10 idle ⟨[[]], false⟩ (n + 1) true .top
          ⟨.new [.data 120 []] (List.replicate 8 0), (), (exPool.pushAssoc posLayout [Pos.top.byte] nameTop).1⟩ := rfl
    have h1 : turn 10 idle ⟨[[]], false⟩ .top
        ⟨.new [.data 120 []] (List.replicate 8 0), (), (exPool.pushAssoc posLayout [Pos.top.byte] nameTop).1⟩ = (exEmpty, .next .top) := by
      decide +kernel
    rw [h0, mainLoop_go (by simp), h1]
    exact hloop n

/-! ## C55: syntax errors -/

/-- **C55, partial.** Full statement: for every buffer that is large enough for the tokens and every chunking, and for all
syntax errors. It is false as C31 is, and because of `C55_double_brace`.

In the situations described by a mode: `scan` of a feed whose last document is broken, with callbacks that only watch, does what
`Feed.scan` and `Bad.scan` say (all callbacks for what is before the bad byte, in their order, and none more) and then
fails, with the error for the bad byte; if the byte is where a value should start, this error is `UnhandledPeek` with that byte
and its position (for a string, a position in it: `C55_string_position`). Such a byte starts no value, or a literal or a number that is
misspelled, or a string with a control character or a wrong escape in it (`NoValue`). Where a key should start, the byte may also be the quote in front of
something that is no key: a string that is no string, or one without a colon behind it (`NoKey`). Missing: wrong hexadecimal digits in an escape. -/
theorem C55_syntax_error_partial (M : Mode) (L F : Nat) (cb : Callbacks β) (O : Observer β) (K : Marks β) (opt : Options) (R : Room)
    (hW : Watches cb O) (hopt : opt.stopEarly = false) (hL : ∀ u ∈ opt.sseTokens, u.length ≤ L)
    (hq : Silent cb .atom [nameTop] K.token) (hqa : Silent cb .array [nameTop] K.array) (hqi : Silent cb .atom [nameArray, nameTop] K.inside)
    (fs : Feed) (b0 : Bytes) (x : Bad) (t : Bytes) (st : St β) (hi : Inv M L F st.rj) (hrd : Ready st.rj) (hst : Holds st.pool R [])
    (hfit : R.Fits [] nameTop) (hfit2 : R.Fits [nameTop] nameArray)
    (hm : Feed.Meets (rules M L) opt.sseTokens M.loose True (b0 ++ (x.lead ++ x.bad.1 :: t)) false fs)
    (hb : Spaces b0) (hx : x.Meets (rules M L) (spot M L t)) (hh : x.HeadMeets (rules M L) b0)
    (hgap : fs.lastToken false = true → M.loose ∨ b0 ≠ [] ∨ x.Memberless)
    (hclear : x.Clear (Foreign opt.sseTokens (x.bad.1 :: t)) True 1)
    (hr : st.rj.rest = Feed.text fs (b0 ++ (x.lead ++ x.bad.1 :: t))) :
    match (Feed.scan O.handler K R [nameTop] fs st.baton).bind (x.scan O R [nameTop]) with
    | .done b => ∃ st' e, st'.baton = b ∧ Reports x.bad (st.rj.currentIndex + (Feed.text fs (b0 ++ x.lead)).length) e ∧
        ∀ n, fs.length + st.rj.rest.length + 1 ≤ n → scan n F cb opt st = (st', .err e)
    | .stop b f => ∃ st' e, st'.baton = b ∧ Faults f st' e ∧
        ∀ n, fs.length + st.rj.rest.length + 1 ≤ n → scan n F cb opt st = (st', .err e) :=
  scan_bad (R := R) hW hopt hL [] hq (boxes := True) (fun _ => ⟨rfl, hfit2, hqa, hqi⟩) fs b0 x t st hi hrd hst hfit hm hb hx hh hgap
    hclear hr

/-! ### Example -/

/-- What `watch` does, as an observer. -/
def logger : Observer (List Event) := ⟨fun p path log => (log ++ [.start p path], none), fun p path log => (log ++ [.finish p path], none)⟩

theorem watch_logs : Watches watch logger :=
  ⟨fun _ _ _ _ => by simp [watch, observe, nothing, logger], fun _ _ _ => by simp [watch, observe, nothing, logger]⟩

/-- `{"k":[1 x` -/
def exBad : Bad := .obj [] (.here [] [107] [] [] (.arr [] (.later [] (.atom [49]) [32] (.sep 120))))
/-- `[{"k": @`: the bad byte is where a value should start. -/
def exBad2 : Bad := .arr [] (.here [] (.obj [] (.here [] [107] [] [32] (.value 64))))

theorem exBad_meets (M : Mode) (L : Nat) (hL : 5 ≤ L) (A : Spot) : exBad.Meets (rules M L) A := by
  have hn : Spaces [] := by intro c hc; simp at hc
  have hs : Spaces [32] := by intro c hc; simp at hc; subst hc; unfold Space; decide
  refine ⟨hn, hn, ⟨raw_k, ?_⟩, hn, hn, ⟨hn, hn, ?_, hs, ?_, ?_⟩, trivial⟩
  · show 1 + 0 + 4 ≤ L; omega
  · exact .number _ number_one (by show 1 + 1 ≤ L; omega)
  · exact fun _ => ⟨by intro c hc; cases hc; unfold Digit; decide, by simp⟩
  · exact ⟨by unfold Space; decide, by decide, by decide⟩

theorem exBad2_meets (M : Mode) (L : Nat) (hL : 5 ≤ L) (t : Bytes) : exBad2.Meets (rules M L) (spot M L t) := by
  have hn : Spaces [] := by intro c hc; simp at hc
  have hs : Spaces [32] := by intro c hc; simp at hc; subst hc; unfold Space; decide
  refine ⟨hn, hn, ⟨hn, hn, ⟨raw_k, ?_⟩, hn, hs, ?_, trivial⟩, by simp⟩
  · show 1 + 0 + 4 ≤ L; omega
  · show NoValue M L t 64; left; unfold Alien Space Digit; decide

/-- `data: {"k" : {"x":1}}⏎{"k":[1 x]}` -/
def exBadFeed : Feed := [([], .token exData), ([32], .doc exObj)]
def exBadSt : St (List Event) :=
  ⟨.new [.data 100 (Feed.text exBadFeed ([10] ++ (exBad.lead ++ 120 :: [93, 125]))).tail] (List.replicate 40 0), [], exPool⟩

example : Feed.text exBadFeed ([10] ++ (exBad.lead ++ 120 :: [93, 125])) = "data: {\"k\" : {\"x\":1}}\n{\"k\":[1 x]}".toUTF8.toList := by
  decide +kernel

example : Watches watch logger ∧ (∀ u ∈ [exData, exDone], u.length ≤ 6) ∧ Silent watch .atom [nameTop] watchMarks.token ∧
    Silent watch .array [nameTop] watchMarks.array ∧ Silent watch .atom [nameArray, nameTop] watchMarks.inside ∧
    Inv wholeMode 6 100 exBadSt.rj ∧ Ready exBadSt.rj ∧ Holds exBadSt.pool exRoom [] ∧ exRoom.Fits [] nameTop ∧
    exRoom.Fits [nameTop] nameArray ∧
    Feed.Meets (rules wholeMode 6) [exData, exDone] wholeMode.loose True ([10] ++ (exBad.lead ++ exBad.bad.1 :: [93, 125])) false exBadFeed ∧
    Spaces [10] ∧ exBad.Meets (rules wholeMode 6) (spot wholeMode 6 [93, 125]) ∧ exBad.HeadMeets (rules wholeMode 6) [10] ∧
    (exBadFeed.lastToken false = true → wholeMode.loose ∨ [10] ≠ ([] : Bytes) ∨ exBad.Memberless) ∧
    exBad.Clear (Foreign [exData, exDone] (exBad.bad.1 :: [93, 125])) True 1 ∧
    exBadSt.rj.rest = Feed.text exBadFeed ([10] ++ (exBad.lead ++ exBad.bad.1 :: [93, 125])) := by
  have h10 : Spaces [10] := by intro c hc; simp at hc; subst hc; unfold Space; decide
  have h32 : Spaces [32] := by intro c hc; simp at hc; subst hc; unfold Space; decide
  have h0 : Spaces [] := by intro c hc; simp at hc
  refine ⟨watch_logs, by decide, watch_silent _ _, watch_silent _ _, watch_silent _ _,
    whole_new _ _ 6 100 trivial (by decide) (by decide) (by decide) (by decide), ready_new _ _, exPool_holds, by decide, by decide,
    ?_, h10, exBad_meets _ _ (by decide) _, trivial, fun _ => .inl trivial, trivial, by decide⟩
  exact ⟨h0, ⟨_, _, rfl, alien_d.1⟩, ⟨[], [exDone], rfl, by simp, by simp⟩, h32, exObj_meets _ _ (by decide) trivial, trivial, trivial,
    fun _ => .inl trivial, trivial⟩

/-- What comes out, step by step. -/
example : (scan 60 100 watch ⟨[exData, exDone], false⟩ exBadSt).2 = .err (.rjiter ⟨.json .expectedListCommaOrEnd, 30⟩) ∧
    (scan 60 100 watch ⟨[exData, exDone], false⟩ exBadSt).1.baton =
      [.start .atom [nameTop]] ++ exObj.events [nameTop] ++
      [.start .object [nameTop], .start .none [[107], nameTop], .start .array [[107], nameTop], .start .atom [nameArray, [107], nameTop]] := by
  decide +kernel

/-- `[{"k": @}` in pieces of one byte. -/
def exBadSt2 : St (List Event) := ⟨.new (oneByOne (exBad2.lead ++ 64 :: [125])) (List.replicate 8 0), [], exPool⟩

example : exBadSt2.rj.rest = "[{\"k\": @}".toUTF8.toList := by decide +kernel

example : Watches watch logger ∧ Inv (streamMode false false 8) 8 100 exBadSt2.rj ∧ Ready exBadSt2.rj ∧ Holds exBadSt2.pool exRoom [] ∧
    exRoom.Fits [] nameTop ∧ Spaces [] ∧ exBad2.Meets (rules (streamMode false false 8) 8) (spot (streamMode false false 8) 8 [125]) ∧ exBad2.HeadMeets (rules (streamMode false false 8) 8) [] ∧
    exBad2.bad.2 = true ∧ exBad2.bad.1 ≠ 34 ∧ exBad2.Clear False True 1 ∧ exBadSt2.rj.rest = [] ++ (exBad2.lead ++ exBad2.bad.1 :: [125]) ∧
    exBad2.scan logger exRoom [nameTop] [] =
      .done [.start .array [nameTop], .start .object [nameArray, nameTop], .start .none [[107], nameArray, nameTop],
        .start .atom [[107], nameArray, nameTop]] := by
  exact ⟨watch_logs, stream_new false false _ _ 8 8 100 (by decide) (by simp) (by simp) (by decide) (by decide) (by decide) (by decide),
    ready_new _ _, exPool_holds, by decide, by intro c hc; simp at hc, exBad2_meets _ _ (by decide) _, trivial, rfl, by decide,
    by simp [exBad2, Bad.Clear, BadItems.Clear, BadMembers.Clear], by decide, by decide +kernel⟩

/-- The token `@` is an error there. -/
example : (scan 60 100 watch ⟨[[64]], false⟩ exBadSt2).2 = .err (.unhandledPeek 64 7) := by decide +kernel

/-- `[trux`: a misspelled literal. -/
def exBad3 : Bad := .arr [] (.here [] (.value 116))
/-- `[1.x`: a misspelled number. -/
def exBad4 : Bad := .arr [] (.here [] (.value 49))

theorem exBad3_meets (M : Mode) (L : Nat) : exBad3.Meets (rules M L) (spot M L [114, 117, 120, 93]) :=
  ⟨by intro c hc; simp at hc, by intro c hc; simp at hc, .inr (.inl ⟨116, _, rfl, .inl rfl, by decide⟩), by simp⟩

theorem exBad4_meets (M : Mode) (L : Nat) (hL : 8 ≤ L) : exBad4.Meets (rules M L) (spot M L [46, 120, 93]) := by
  refine ⟨by intro c hc; simp at hc, by intro c hc; simp at hc, .inr (.inr (.inl ⟨⟨49, _, rfl, .inr (by unfold Digit; decide)⟩, ?_⟩)), by simp⟩
  intro v t e hn
  have hv : v = (49 :: [46, 120, 93]).take v.length := by rw [e]; simp
  have hlen := congrArg List.length e
  simp only [List.length_cons, List.length_nil, List.length_append] at hlen
  have hend := Jiter.numberEnd_spec hn (t := []) (by intro c hc; simp at hc)
  rw [List.append_nil] at hend
  have : v.length = 0 ∨ v.length = 1 ∨ v.length = 2 ∨ v.length = 3 ∨ v.length = 4 := by omega
  rcases this with h | h | h | h | h <;> rw [h] at hv hend <;> rw [hv] at hend
  · exact absurd (congrArg Except.toBool hend) (by decide)
  · rw [hv] at e ⊢
    simp only [List.take_succ_cons, List.take_zero, List.cons_append, List.nil_append, List.cons.injEq, true_and] at e
    exact ⟨by simp; omega, 46, [120, 93], e.symm, .inr ⟨[48], [], [49], [46, 48], [], rfl, .inl rfl, .inr ⟨⟨by simp, by unfold Digit; decide⟩, by decide⟩,
      .inr ⟨[48], rfl, by simp, by unfold Digit; decide⟩, .inl rfl⟩⟩
  · exact absurd (congrArg Except.toBool hend) (by decide)
  · exact absurd (congrArg Except.toBool hend) (by decide)
  · exact absurd (congrArg Except.toBool hend) (by decide)

def exBadSt3 : St (List Event) := ⟨.new (oneByOne (exBad3.lead ++ 116 :: [114, 117, 120, 93])) (List.replicate 8 0), [], exPool⟩
def exBadSt4 : St (List Event) := ⟨.new (oneByOne (exBad4.lead ++ 49 :: [46, 120, 93])) (List.replicate 8 0), [], exPool⟩

example : exBadSt3.rj.rest = "[trux]".toUTF8.toList ∧ exBadSt4.rj.rest = "[1.x]".toUTF8.toList ∧
    Inv (streamMode false false 8) 8 100 exBadSt3.rj ∧ Inv (streamMode false false 8) 8 100 exBadSt4.rj ∧
    exBad3.Clear (Foreign [exData] (116 :: [114, 117, 120, 93])) True 1 ∧ exBad4.Clear (Foreign [exData] (49 :: [46, 120, 93])) True 1 :=
  ⟨by decide +kernel, by decide +kernel,
    stream_new false false _ _ 8 8 100 (by decide) (by simp) (by simp) (by decide) (by decide) (by decide) (by decide),
    stream_new false false _ _ 8 8 100 (by decide) (by simp) (by simp) (by decide) (by decide) (by decide) (by decide),
    fun _ => by unfold Foreign; decide, fun _ => by unfold Foreign; decide⟩

/-- The error is at the first byte of the token, and says nothing of the byte that is wrong in it. -/
example : (scan 60 100 watch ⟨[exData], false⟩ exBadSt3).2 = .err (.unhandledPeek 116 1) ∧
    (scan 60 100 watch ⟨[exData], false⟩ exBadSt4).2 = .err (.unhandledPeek 49 1) := by decide +kernel

/-- `{"k"`, where `}` is behind the key. -/
def exBad5 : Bad := .key [] 34
/-- `{"k":1,"k"`, where a line feed is in the second key. -/
def exBad6 : Bad := .obj [] (.later [] [107] [] [] (.atom [49]) [] (.key [] 34))
/-- `["`, where a line feed is in the string. -/
def exBad7 : Bad := .arr [] (.here [] (.value 34))

theorem exBad5_meets (M : Mode) (L : Nat) : exBad5.Meets (rules M L) (spot M L [107, 34, 125]) := by
  refine ⟨by intro c hc; simp at hc, .inr ⟨rfl, .inr ⟨[107], [], 125, [], rfl, raw_k, by intro c hc; simp at hc, ?_, by decide, by decide, by decide⟩⟩⟩
  unfold Space; decide

theorem exBad6_meets (M : Mode) (L : Nat) (hL : 8 ≤ L) : exBad6.Meets (rules M L) (spot M L [107, 10, 34, 58, 49, 125]) := by
  have hn : Spaces [] := by intro c hc; simp at hc
  refine ⟨hn, hn, ⟨raw_k, ?_⟩, hn, hn, .number _ number_one (by show 1 + 1 ≤ L; omega), trivial, hn,
    fun _ => ⟨by intro c hc; cases hc; unfold Digit; decide, by simp⟩, hn, .inr ⟨rfl, .inl ⟨[107], 10, [34, 58, 49, 125], rfl, raw_k, .inl (by decide)⟩⟩⟩
  show 1 + 0 + 4 ≤ L; omega

theorem exBad7_meets (M : Mode) (L : Nat) (hM : M.str [107, 10]) : exBad7.Meets (rules M L) (spot M L [107, 10, 34, 93]) :=
  ⟨by intro c hc; simp at hc, by intro c hc; simp at hc, .inr (.inr (.inr ⟨rfl, [107], 10, [34, 93], _, _, rfl, raw_k,
    .control _ _ (by decide), hM⟩)), by simp⟩

/-- The same with `\\x` in the string. -/
theorem exBad7_meets_escape (M : Mode) (L : Nat) (hM : M.str [107, 92]) : exBad7.Meets (rules M L) (spot M L [107, 92, 120, 34, 93]) :=
  ⟨by intro c hc; simp at hc, by intro c hc; simp at hc, .inr (.inr (.inr ⟨rfl, [107], 92, [120, 34, 93], _, _, rfl, raw_k,
    .escape _ _ (by decide) (by intro ch h; simp [Escape] at h), hM⟩)), by simp⟩

example : (streamMode false false 8).str [107, 10] ∧ (streamMode true false 8).str [107, 92] := ⟨.inr (by decide), .inl rfl⟩

def exBadSt5 : St (List Event) := ⟨.new (oneByOne (exBad5.lead ++ 34 :: [107, 34, 125])) (List.replicate 8 0), [], exPool⟩
def exBadSt6 : St (List Event) := ⟨.new (oneByOne (exBad6.lead ++ 34 :: [107, 10, 34, 58, 49, 125])) (List.replicate 8 0), [], exPool⟩
def exBadSt7 : St (List Event) := ⟨.new (oneByOne (exBad7.lead ++ 34 :: [107, 10, 34, 93])) (List.replicate 8 0), [], exPool⟩

example : exBadSt5.rj.rest = [123, 34, 107, 34, 125] ∧ exBadSt6.rj.rest = [123, 34, 107, 34, 58, 49, 44, 34, 107, 10, 34, 58, 49, 125] ∧
    exBadSt7.rj.rest = [91, 34, 107, 10, 34, 93] ∧
    Inv (streamMode false false 8) 8 100 exBadSt5.rj ∧ Inv (streamMode false false 8) 8 100 exBadSt6.rj ∧
    Inv (streamMode false false 8) 8 100 exBadSt7.rj ∧
    exBad7.Clear (Foreign [exData] (34 :: [107, 10, 34, 93])) True 1 :=
  ⟨by decide +kernel, by decide +kernel, by decide +kernel,
    stream_new false false _ _ 8 8 100 (by decide) (by simp) (by simp) (by decide) (by decide) (by decide) (by decide),
    stream_new false false _ _ 8 8 100 (by decide) (by simp) (by simp) (by decide) (by decide) (by decide) (by decide),
    stream_new false false _ _ 8 8 100 (by decide) (by simp) (by simp) (by decide) (by decide) (by decide) (by decide),
    fun _ => by unfold Foreign; decide⟩

example : (scan 60 100 watch ⟨[exData], false⟩ exBadSt5).2 = .err (.rjiter ⟨.json .expectedColon, 8⟩) ∧
    (scan 60 100 watch ⟨[exData], false⟩ exBadSt6).2 = .err (.rjiter ⟨.json .controlCharacterWhileParsingString, 10⟩) ∧
    (scan 60 100 watch ⟨[exData], false⟩ exBadSt7).2 = .err (.unhandledPeek 34 1) := by decide +kernel

/-- **C55, a false part.** Where the error in a string is said to be depends on the chunks. -/
theorem C55_string_position : ∃ (t : Bytes) (r1 r2 : Reader) (buf : Bytes), r1.Clean ∧ r2.Clean ∧ r1.pending = t ∧ r2.pending = t ∧
    (scan 40 100 watch ⟨[], false⟩ ⟨.new r1 buf, [], exPool⟩).2 = .err (.unhandledPeek 34 1) ∧
    (scan 40 100 watch ⟨[], false⟩ ⟨.new r2 buf, [], exPool⟩).2 = .err (.unhandledPeek 34 11) := by
  refine ⟨[91, 34, 97, 98, 99, 100, 101, 102, 103, 104, 105, 106, 107, 1, 34, 93],
    [.data 91 [34, 97, 98, 99, 100, 101, 102, 103, 104, 105, 106, 107, 1, 34, 93]],
    oneByOne [91, 34, 97, 98, 99, 100, 101, 102, 103, 104, 105, 106, 107, 1, 34, 93], List.replicate 40 0,
    by decide, by decide +kernel, by decide, by decide +kernel, ?_, ?_⟩ <;>
  decide +kernel

/-- **C55, a false part.** A second brace behind the first one is ignored. -/
theorem C55_double_brace : ∃ (reader : Reader) (buf : Bytes), reader.Clean ∧ reader.pending = [123, 123, 34, 97, 34, 58, 49, 125] ∧
    (scan 40 100 watch ⟨[], false⟩ ⟨.new reader buf, [], exPool⟩).2 = .ok () := by
  refine ⟨[.data 123 [123, 34, 97, 34, 58, 49, 125]], List.replicate 40 0, by decide, by decide, ?_⟩
  decide +kernel

end Verif.Scan
