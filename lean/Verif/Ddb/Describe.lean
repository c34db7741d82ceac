import Verif.Ddb.Message
import Verif.RJiter.Column
import Verif.RJiter.PropsIo

/-!
# Property C98: where `description` says that an error is

The model of `Error::get_position`, `Error::description` and `Error::write_description` of `rjiter`.
-/

namespace Verif.Ddb

open Verif.RJiter Verif.RJiter.RJ Verif.RJiter.Jiter

/-- `Display` of jiter's `LinePosition`; the format is in rjiter/tests/error_test.rs line 48. -/
def positionText (p : Nat × Nat) : Bytes := utf8 "line " ++ decimal p.1 ++ utf8 " column " ++ decimal p.2

/-- `get_position`, rjiter/src/error.rs lines 84-88; `none` is a panic. -/
def getPosition (e : Err) (s : RJ) : Option (Nat × Nat) := s.errorPosition e.index

/-- `description`, rjiter/src/error.rs lines 105-112, and what `write_description` (lines 90-103) writes; `none` is a panic. -/
def description (T : Texts) (e : Err) (s : RJ) : Option Bytes :=
  (getPosition e s).map fun p => errTypeText T e.type ++ utf8 " at " ++ positionText p

/-- The text of an error of type `t` on a line, in a column. -/
def placed (T : Texts) (t : ErrType) (line column : Nat) : Bytes :=
  errTypeText T t ++ utf8 " at line " ++ decimal line ++ utf8 " column " ++ decimal column

theorem description_eq (T : Texts) (e : Err) (s : RJ) (p : Nat × Nat) (h : s.errorPosition e.index = some p) :
    description T e s = some (placed T e.type p.1 p.2) := by
  have : utf8 " at line " = utf8 " at " ++ utf8 "line " := by decide +kernel
  simp [description, getPosition, h, placed, positionText, this]

theorem verdict_flat {op : Op} {v : Bytes → Option JErr} (hv : op.verdict = some v) (a : Bool) : if a then op.Short else op.Flat := by
  cases op <;> simp only [Op.verdict, reduceCtorEq] at hv <;> cases a <;> simp [Op.Short, Op.Flat]

/-- Where the token is, and which line and column `error_position` gives for an offset in it. -/
theorem position_after (a : Bool) (input : Reader) (buf : Bytes) (hl : 2 ≤ buf.length) (ops : List Op) (s : RJ)
    (hh : History (.new input buf) ops s) (hops : ∀ op ∈ ops, if a then op.Short else op.Flat) (op : Op)
    (hop : if a then op.Short else op.Flat) (fuel : Nat) (s' : RJ) (r : Res Unit) (he : op.run fuel s = (s', r)) (w : Nat) (hm : s.Moved s' w)
    (hj : s'.jidx = 0) (i : Nat) :
    input.pending.drop s'.currentIndex = s'.rest ∧
    ∃ c, s'.errorPosition (s'.currentIndex + i) =
        some ((lineColAt (input.pending.take (s'.currentIndex + s'.b.nBytes)) (s'.currentIndex + i)).1, c) ∧
      (10 ∉ (s'.rest.take s'.b.nBytes).take (i + 1) →
        c = (lineColAt (input.pending.take (s'.currentIndex + s'.b.nBytes)) (s'.currentIndex + i)).2 ∨
        (a = true ∧ c = (lineColAt (input.pending.take (s'.currentIndex + s'.b.nBytes)) (s'.currentIndex + i)).2 + 1)) := by
  obtain ⟨n, hmn⟩ := hh.moved (sync_new _ _) hl
  have hr1 : s.rest = input.pending.drop s.currentIndex := by
    have h1 := hmn.rest
    have h2 := hmn.index
    rw [rest_new] at h1
    have h3 : s.currentIndex = n := by rw [h2]; simp [RJ.new, Buffer.new, currentIndex]
    rw [h1, h3]
  have hr2 : s'.rest = input.pending.drop s'.currentIndex := by
    rw [hm.rest, hr1, List.drop_drop, hm.index]
  have hk : Kept a input.pending s'.b := by
    have := (Op.run_steps a op hop fuel s (hh.kept hops (kept_new a input buf)).ok).kept (hh.kept hops (kept_new a input buf))
    rw [he] at this; exact this
  have hci : s'.currentIndex = s'.b.nShifted := by simp [currentIndex, hj]
  have hrv : s'.rest = s'.b.valid ++ s'.b.reader.pending := by simp [RJ.rest, Buffer.rest, hj]
  have hnear := hk.near (by rw [← hci, ← hr2, hrv])
  have hvl := Buffer.valid_length hk.ok
  refine ⟨hr2.symm, ?_⟩
  have hseen : input.pending.take (s'.currentIndex + s'.b.nBytes) = input.pending.take s'.currentIndex ++ s'.b.valid := by
    rw [List.take_add, ← hr2, hrv, ← hvl, List.take_left]
  have hcl : s'.currentIndex ≤ input.pending.length ∨ s'.b.valid = [] := by
    by_cases h : s'.currentIndex ≤ input.pending.length
    · exact .inl h
    · right
      have := congrArg List.length hr2
      rw [hrv, List.length_drop, List.length_append] at this
      exact List.length_eq_zero_iff.mp (by omega)
  have htake : (input.pending.take (s'.currentIndex + s'.b.nBytes)).take (s'.currentIndex + i + 1) =
      input.pending.take s'.currentIndex ++ s'.b.valid.take (i + 1) := by
    rw [hseen]
    rcases hcl with h | h
    · rw [List.take_append, List.length_take, Nat.min_eq_left h, List.take_of_length_le (by rw [List.length_take]; omega)]
      congr 2; omega
    · rw [h]; simp only [List.append_nil, List.take_nil]
      rw [List.take_take]; congr 1; omega
  have hvt : (s'.rest.take s'.b.nBytes) = s'.b.valid := by rw [hrv, ← hvl, List.take_left]
  have hlen : s'.b.buf.take s'.jlen = s'.b.valid := by rw [hm.sync.len]; rfl
  rw [errorPosition, if_neg (by omega), hlen, linePosition_any, hci, Nat.add_sub_cancel_left, ← hci]
  obtain ⟨n1, n2⟩ := hnear
  obtain ⟨a1, a2⟩ := lineCol_append (input.pending.take s'.currentIndex) (s'.b.valid.take (i + 1))
  rw [← hci] at n1 n2
  simp only at n1 n2
  simp only [lineColAt, htake, hvt]
  refine ⟨_, congrArg some (Prod.ext ?_ rfl), ?_⟩
  · simp only; rw [a1, n1]; omega
  · intro h10
    rw [a2 h10, lineCol_no_newline h10]
    simp only
    rcases n2 with n2 | ⟨ha, n2⟩
    · left; rw [n2]; omega
    · right; exact ⟨ha, by rw [n2]; omega⟩

/-- **C98, partial.** Any calls but `write_long_*` that did not fail, on any input, chunks and buffer; then `peek` or a call on null, a boolean or a string
fails, not because of the reader. `description` gives the type of the error and the line on which the error is in what has been read; this is the line of the
offending byte, or of the last byte that was read if the error is that there is no more. If no newline is between the start of the token and the error, the
column is the right one, or one more; if all calls so far were on atoms (`Flat`: `a` is `false`) it is the right one. Full statement: every failed call, and
the right column; it is false, see `C98_column`, `C98_newline`, `C98_panic`, and C24 for the other calls. -/
theorem C98_description_partial (T : Texts) (a : Bool) (input : Reader) (buf : Bytes) (hl : 2 ≤ buf.length) (ops : List Op) (s : RJ)
    (hh : History (.new input buf) ops s) (hops : ∀ op ∈ ops, if a then op.Short else op.Flat) (op : Op) (v : Bytes → Option JErr)
    (hv : op.verdict = some v) (fuel : Nat) (hf : enoughFuel s fuel) (s' : RJ) (t : ErrType) (x : Nat)
    (he : op.run fuel s = (s', .err ⟨t, x⟩)) (ht : ∀ kd, t ≠ .io kd) :
    ∃ n k e c, s.currentIndex ≤ n ∧ Blank ((input.pending.drop s.currentIndex).take (n - s.currentIndex)) ∧
      v ((input.pending.drop n).take k) = some e ∧ t = .ofJ e.type ∧ x = n + e.index ∧
      (canRetry e.type = true → input.pending.length ≤ n + k ∨ k = buf.length) ∧
      description T ⟨t, x⟩ s' = some (placed T t (lineColAt (input.pending.take (n + k)) x).1 c) ∧
      (10 ∉ ((input.pending.drop n).take k).take (e.index + 1) →
        c = (lineColAt (input.pending.take (n + k)) x).2 ∨ (a = true ∧ c = (lineColAt (input.pending.take (n + k)) x).2 + 1)) := by
  obtain ⟨m, hmn⟩ := hh.moved (sync_new _ _) hl
  have hsl : s.b.buf.length = buf.length := hmn.buf
  rcases op_error_at op v hv s fuel hmn.sync (by omega) hf s' _ he with ⟨kd, y, h1, _⟩ | ⟨ws, r, k, e, h1, h2, h3, h4, h5, h6, h7, h8, h9⟩
  · simp only [Err.mk.injEq] at h1; exact absurd h1.1 (ht kd)
  simp only [Err.mk.injEq] at h6
  obtain ⟨rfl, rfl⟩ := h6
  obtain ⟨g1, c, g2, g3⟩ := position_after a input buf hl ops s hh hops op (verdict_flat hv a) fuel s' _ he _ h7 h8 e.index
  have hci : s'.currentIndex = s.currentIndex + ws.length := h7.index
  have hr' : s'.rest = r := by rw [h7.rest, h1, List.drop_left]
  have hr0 : input.pending.drop s.currentIndex = ws ++ r := by
    have h1' := hmn.rest
    have h2' := hmn.index
    rw [rest_new] at h1'
    have h3' : s.currentIndex = m := by rw [h2']; simp [RJ.new, Buffer.new, currentIndex]
    rw [h3', ← h1', h1]
  have hrl := congrArg List.length (g1.trans hr')
  rw [List.length_drop] at hrl
  subst h9
  rw [hr'] at g1 g3
  refine ⟨s'.currentIndex, s'.b.nBytes, e, c, by omega, ?_, ?_, rfl, by rw [hci], ?_, ?_, ?_⟩
  · rw [hr0, hci, Nat.add_sub_cancel_left, List.take_left]; exact h2
  · rw [g1]; exact h4
  · intro hc
    rcases h5 hc with h | h
    · left; omega
    · right; omega
  · rw [← hci]; exact description_eq T ⟨_, _⟩ s' _ g2
  · rw [g1, ← hci]; exact g3

/-- **C98** for a value of another type, **partial** as above. The reader does not fail; `next_null`, `next_bool`, `next_str` and `next_bytes` on a value of
another type, after any calls but `write_long_*` that did not fail. `description` gives the line of the first byte of the value, and its column or one more;
its column, if all calls so far were on atoms. -/
theorem C98_wrong_type_partial (T : Texts) (a : Bool) (input : Reader) (hcl : input.Clean) (buf : Bytes) (hl : 2 ≤ buf.length) (ops : List Op) (s : RJ)
    (hh : History (.new input buf) ops s) (hops : ∀ op ∈ ops, if a then op.Short else op.Flat) (fuel : Nat) (hf : enoughFuel s fuel)
    (ws : Bytes) (q : Byte) (t : Bytes) (hr : input.pending.drop s.currentIndex = ws ++ q :: t) (hw : Spaces ws) (hq : Opens q) (op : Op)
    (hop : (op = .nextNull ∧ q ≠ 110) ∨ (op = .nextBool ∧ q ≠ 116 ∧ q ≠ 102) ∨ ((op = .nextStr ∨ op = .nextBytes) ∧ q ≠ 34)) :
    ∃ s' c, op.run fuel s = (s', .err ⟨.wrongType, s.currentIndex + ws.length⟩) ∧
      description T ⟨.wrongType, s.currentIndex + ws.length⟩ s' =
        some (placed T .wrongType (lineColAt input.pending (s.currentIndex + ws.length)).1 c) ∧
      (c = (lineColAt input.pending (s.currentIndex + ws.length)).2 ∨
        (a = true ∧ c = (lineColAt input.pending (s.currentIndex + ws.length)).2 + 1)) := by
  obtain ⟨m, hmn⟩ := hh.moved (sync_new _ _) hl
  have hsl : s.b.buf.length = buf.length := hmn.buf
  have hrest : s.rest = ws ++ q :: t := by
    have h1' := hmn.rest
    have h2' := hmn.index
    rw [rest_new] at h1'
    have h3' : s.currentIndex = m := by rw [h2']; simp [RJ.new, Buffer.new, currentIndex]
    rw [h1', ← hr, h3']
  obtain ⟨c1, c2, c3⟩ := C24_wrong_type s fuel hmn.sync (by omega) (hmn.clean hcl) hf ws q t hrest hw hq
  have hrun : ∃ s', op.run fuel s = (s', .err ⟨.wrongType, s.currentIndex + ws.length⟩) ∧ s.Moved s' ws.length := by
    rcases hop with ⟨rfl, h1⟩ | ⟨rfl, h1, h2⟩ | ⟨rfl | rfl, h1⟩
    · obtain ⟨s', e, hm⟩ := c1 h1
      exact ⟨s', by simp only [Op.run, e, Res.void], hm⟩
    · obtain ⟨s', e, hm⟩ := c2 h1 h2
      exact ⟨s', by simp only [Op.run, e, Res.void], hm⟩
    · obtain ⟨s', e, hm⟩ := (c3 h1).1
      exact ⟨s', by simp only [Op.run, e, Res.void], hm⟩
    · obtain ⟨s', e, hm⟩ := (c3 h1).2
      exact ⟨s', by simp only [Op.run, e, Res.void], hm⟩
  obtain ⟨v, hv, hv0⟩ : ∃ v, op.verdict = some v ∧ v [] = some ⟨.json .eofWhileParsingValue, 0⟩ := by
    rcases hop with ⟨rfl, h1⟩ | ⟨rfl, h1, h2⟩ | ⟨rfl | rfl, h1⟩ <;> exact ⟨_, rfl, rfl⟩
  obtain ⟨s', he, hm⟩ := hrun
  rcases op_error_at op v hv s fuel hmn.sync (by omega) hf s' _ he with ⟨kd, y, h1, _⟩ | ⟨ws', r, k, e, h1, h2, h3, h4, h5, h6, h7, h8, h9⟩
  · simp at h1
  obtain ⟨g1, c, g2, g3⟩ := position_after a input buf hl ops s hh hops op (verdict_flat hv a) fuel s' _ he _ hm h8 0
  have hci : s'.currentIndex = s.currentIndex + ws.length := hm.index
  have hk : 1 ≤ s'.b.nBytes := by
    apply Classical.byContradiction
    intro h0
    have : k = 0 := by omega
    rw [this, List.take_zero, hv0] at h4
    injection h4 with h4
    simp only [Err.mk.injEq] at h6
    rw [← h4] at h6
    simp [ErrType.ofJ] at h6
  have hr' : s'.rest = q :: t := by rw [hm.rest, hrest, List.drop_left]
  have hseen : lineColAt (input.pending.take (s'.currentIndex + s'.b.nBytes)) s'.currentIndex = lineColAt input.pending s'.currentIndex := by
    simp only [lineColAt, List.take_take]
    rw [show min (s'.currentIndex + 1) (s'.currentIndex + s'.b.nBytes) = s'.currentIndex + 1 by omega]
  simp only [Nat.add_zero, Nat.zero_add, hseen] at g2 g3
  refine ⟨s', c, he, ?_, ?_⟩
  · rw [← hci]; exact description_eq T ⟨_, _⟩ s' _ g2
  · rw [← hci]
    refine g3 ?_
    rw [hr']
    obtain ⟨j, hj⟩ : ∃ j, s'.b.nBytes = j + 1 := ⟨s'.b.nBytes - 1, by omega⟩
    rw [hj]
    simp only [List.take_succ_cons, List.take_zero, List.mem_singleton]
    rcases hq with rfl | rfl | rfl | rfl | rfl | rfl <;> decide

/-- Texts for the examples. -/
def exSay : Texts := ⟨fun _ => utf8 "control character", fun _ => [], utf8 "string but found null", [], fun _ => [], fun _ => [], fun _ => []⟩

/-- The input of rjiter/tests/error_test.rs line 38: six newlines with spaces, then `null null`. -/
def exTest : Bytes := utf8 "\n \n  \n   \n    \n      \n   null null"

/-- The test `description_of_error` with its buffer of 10 bytes. -/
example : Reader.Clean [.data 10 (exTest.drop 1)] ∧ Reader.pending [.data 10 (exTest.drop 1)] = exTest ∧
    History (.new [.data 10 (exTest.drop 1)] (List.replicate 10 0)) [] (.new [.data 10 (exTest.drop 1)] (List.replicate 10 0)) ∧
    enoughFuel (.new [.data 10 (exTest.drop 1)] (List.replicate 10 0)) 100 ∧
    exTest = exTest.take 25 ++ 110 :: exTest.drop 26 ∧ Spaces (exTest.take 25) ∧ Opens 110 ∧ lineColAt exTest 25 = (7, 4) ∧
    placed exSay .wrongType 7 4 = utf8 "expected string but found null at line 7 column 4" ∧
    ((RJ.new [.data 10 (exTest.drop 1)] (List.replicate 10 0)).nextStr 100).2 = .err ⟨.wrongType, 25⟩ ∧
    description exSay ⟨.wrongType, 25⟩ ((RJ.new [.data 10 (exTest.drop 1)] (List.replicate 10 0)).nextStr 100).1 = some (placed exSay .wrongType 7 4) := by
  refine ⟨by decide +kernel, by decide +kernel, .nil _, by unfold enoughFuel; decide +kernel, by decide +kernel, ?_, by simp [Opens], by decide +kernel,
    by decide +kernel, by decide +kernel, by decide +kernel⟩
  intro c hc
  have : ∀ c ∈ exTest.take 25, c = 10 ∨ c = 32 := by decide +kernel
  rcases this c hc with rfl | rfl <;> simp [Space]

/-- `[null,⏎␣"a\x"]` in two reads, of which the first ends in the string: the letter of the bad escape is on line 2 in column 5. -/
example : ∃ s s' : RJ, History (.new [.data 91 [110, 117, 108, 108, 44, 10, 32, 34], .data 97 [92, 120, 34, 93]] (List.replicate 16 0))
      [.nextArray, .nextNull, .arrayStep] s ∧ (∀ op ∈ [Op.nextArray, .nextNull, .arrayStep], if true then op.Short else op.Flat) ∧
    (Op.verdict .nextStr).isSome ∧ enoughFuel s 60 ∧
    Op.run 60 s .nextStr = (s', .err ⟨.json .invalidEscape, 11⟩) ∧ s.currentIndex = 8 ∧
    lineColAt [91, 110, 117, 108, 108, 44, 10, 32, 34, 97, 92, 120, 34, 93] 11 = (2, 5) ∧
    description exSay ⟨.json .invalidEscape, 11⟩ s' = some (placed exSay (.json .invalidEscape) 2 5) := by
  refine ⟨_, _, .cons (fuel := 60) (r := .ok ()) (by unfold enoughFuel; decide +kernel) rfl (.ok _)
    (.cons (fuel := 60) (r := .ok ()) (by unfold enoughFuel; decide +kernel) rfl (.ok _)
    (.cons (fuel := 60) (r := .ok ()) (by unfold enoughFuel; decide +kernel) rfl (.ok _) (.nil _))), ?_, rfl, by unfold enoughFuel; decide +kernel, rfl,
    by decide +kernel, by decide +kernel, by decide +kernel⟩
  simp [Op.Short]

/-- **C98 is false**: on `[null,⏎null]`, if the first read ends behind the newline, `next_str` on the second `null` fails on line 2 in column 1.
`description` says column 2: the comma was kept in the buffer while the newline was shifted out. -/
theorem C98_column : ∃ s s' : RJ, History (.new [.data 91 [110, 117, 108, 108, 44, 10], .data 110 [117, 108, 108, 93]] (List.replicate 16 0))
      [.nextArray, .nextNull, .arrayStep] s ∧ s.nextStr 60 = (s', .err ⟨.wrongType, 7⟩) ∧
    lineColAt [91, 110, 117, 108, 108, 44, 10, 110, 117, 108, 108, 93] 7 = (2, 1) ∧
    description exSay ⟨.wrongType, 7⟩ s' = some (utf8 "expected string but found null at line 2 column 2") := by
  refine ⟨_, _, .cons (fuel := 60) (r := .ok ()) (by unfold enoughFuel; decide +kernel) rfl (.ok _)
    (.cons (fuel := 60) (r := .ok ()) (by unfold enoughFuel; decide +kernel) rfl (.ok _)
    (.cons (fuel := 60) (r := .ok ()) (by unfold enoughFuel; decide +kernel) rfl (.ok _) (.nil _))), rfl, by decide +kernel, by decide +kernel⟩

/-- **C98 is false** if a newline is in the token: on `␣␣"⏎"`, `next_str` fails at the newline, which is counted as column 0 of line 2. `description` says
column 2: it adds the columns of the spaces on the line before. -/
theorem C98_newline : ∃ s' : RJ, (RJ.new [.data 32 [32, 34, 10, 34]] (List.replicate 16 0)).nextStr 60 =
      (s', .err ⟨.json .controlCharacterWhileParsingString, 3⟩) ∧ lineColAt [32, 32, 34, 10, 34] 3 = (2, 0) ∧
    description exSay ⟨.json .controlCharacterWhileParsingString, 3⟩ s' =
      some (utf8 "JSON parsing error: control character at line 2 column 2") :=
  ⟨_, rfl, by decide +kernel, by decide +kernel⟩

/-- **C98 is false** for the errors of the reader: `description` panics. On `␣null` and a failure of the reader behind it: `next_null`, then
`array_step`, which reads on. -/
theorem C98_panic : ∃ s s' : RJ, ∃ x, History (.new [.data 32 [110, 117, 108, 108], .fail 7] (List.replicate 16 0)) [.nextNull] s ∧
    s.arrayStep 60 = (s', .err ⟨.io 7, x⟩) ∧ description exSay ⟨.io 7, x⟩ s' = none :=
  ⟨_, _, _, .cons (fuel := 60) (r := .ok ()) (by unfold enoughFuel; decide +kernel) rfl (.ok _) (.nil _), rfl, by decide +kernel⟩

end Verif.Ddb
