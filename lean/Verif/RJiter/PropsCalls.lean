import Verif.RJiter.Props
import Verif.RJiter.NumEnd

/-!
# Properties C17, C18, C19, C41, C42 of `rjiter`: the calls on tokens

The documents are described by explicit grammars (`StrSpec.lean`, `NumSpec.lean`), not by what jiter does.
`s.rest` is the rest of the document; how it is split into chunks, and how much of it is buffered, is arbitrary.
-/

namespace Verif.RJiter

open Buffer RJ

/-- What the two families of string calls return for a string body: the raw bytes or the decoded characters. -/
inductive Content : Kind → Bytes → Bytes → Prop where
  | raw (body : Bytes) : RawBody body → Content .raw body body
  | str (body : Bytes) (chars : List Char) : StrBody true body chars → Content .str body (encAll chars)

theorem Content.parser {k : Kind} {body v : Bytes} (h : Content k body v) (q : Byte) (t : Bytes) :
    k.parser (q :: (body ++ 34 :: t)) = (body.length + 2, .ok v) := by
  cases h with
  | raw _ h => exact knownBytes_body h q t
  | str _ _ h => exact knownStr_body h q t

theorem Content.key {k : Kind} {body v : Bytes} (h : Content k body v) {ws : Bytes} (hw : Spaces ws) (t : Bytes) :
    Jiter.objectKey k.parser (34 :: (body ++ 34 :: (ws ++ 58 :: t))) = (body.length + ws.length + 3, .ok v) := by
  have hd : (34 :: (body ++ 34 :: (ws ++ 58 :: t))).drop (body.length + 2) = ws ++ 58 :: t := by
    rw [show body.length + 2 = (body.length + 1) + 1 by omega, List.drop_succ_cons, List.drop_append]
    simp [List.drop_eq_nil_of_le]
  simp only [Jiter.objectKey, h.parser]
  rw [hd, Jiter.wsLen_cons ((ws_iff _).mpr hw) (by decide)]
  have : (34 :: (body ++ 34 :: (ws ++ 58 :: t))).drop (body.length + 2 + ws.length) = 58 :: t := by
    rw [← List.drop_drop, hd, List.drop_left]
  rw [this]
  simp; omega

theorem Content.colon {k : Kind} {body v : Bytes} (h : Content k body v) {ws : Bytes} (hw : Spaces ws) (t : Bytes) :
    Colon k.parser (body ++ 34 :: (ws ++ 58 :: t)) (body.length + 2) (body.length + ws.length + 3) := by
  intro j h0 h1
  obtain ⟨i, rfl⟩ : ∃ i, j = (body.length + (i + 1)) + 1 := ⟨j - body.length - 2, by omega⟩
  have e : (34 :: (body ++ 34 :: (ws ++ 58 :: t))).take ((body.length + (i + 1)) + 1) = 34 :: (body ++ 34 :: ws.take i) := by
    rw [List.take_succ_cons, List.take_append, List.take_of_length_le (by omega : body.length ≤ body.length + (i + 1)),
      show body.length + (i + 1) - body.length = i + 1 by omega, List.take_succ_cons, List.take_append_of_le_length (by omega)]
  have hd : (34 :: (body ++ 34 :: ws.take i)).drop (body.length + 2) = ws.take i := by
    rw [show body.length + 2 = (body.length + 1) + 1 by omega, List.drop_succ_cons, List.drop_append]
    simp [List.drop_eq_nil_of_le]
  have hws : Ws (ws.take i) := Jiter.Ws.take ((ws_iff _).mpr hw) i
  have hl : (ws.take i).length = i := by rw [List.length_take]; omega
  refine ⟨⟨.json .eofWhileParsingObject, body.length + 2 + i⟩, ?_⟩
  rw [e]
  simp only [Jiter.objectKey, h.parser]
  rw [hd, Jiter.wsLen_all hws, hl, List.drop_eq_nil_of_le (by simp only [List.length_cons, List.length_append, hl]; omega)]
  simp only [jerr]
  rw [show body.length + (i + 1) + 1 = body.length + 2 + i by omega]

/-! ## C17: arrays -/

/-- **C17** (`known_array`), partial: the first byte of the element must not be a form feed (see `C16_form_feed`).
Positioned on `[`: the first byte of the first element, or the end of the array. -/
theorem C17_known_array_partial (s : RJ) (fuel : Nat) (h : s.Sync) (hl : 2 ≤ s.b.buf.length) (hc : s.b.reader.Clean)
    (hf : enoughFuel s fuel) (ws : Bytes) (c : Byte) (t : Bytes) (hr : s.rest = 91 :: (ws ++ c :: t)) (hw : Spaces ws)
    (hcs : ¬ Space c) (hff : c ≠ 12) :
    ∃ s', s.knownArray fuel = (s', .ok (if c = 93 then none else some c)) ∧
      s.Moved s' (1 + ws.length + if c = 93 then 1 else 0) := by
  unfold enoughFuel at hf
  exact RJ.knownArray_complete h hc (by omega) hl hr ((ws_iff _).mpr hw) (isAsciiWs_false hcs hff)

/-- **C17** (`next_array`), partial in the same way. -/
theorem C17_next_array_partial (s : RJ) (fuel : Nat) (h : s.Sync) (hl : 2 ≤ s.b.buf.length) (hc : s.b.reader.Clean)
    (hf : enoughFuel s fuel) (ws0 ws : Bytes) (c : Byte) (t : Bytes) (hr : s.rest = ws0 ++ 91 :: (ws ++ c :: t))
    (hw0 : Spaces ws0) (hw : Spaces ws) (hcs : ¬ Space c) (hff : c ≠ 12) :
    ∃ s', s.nextArray fuel = (s', .ok (if c = 93 then none else some c)) ∧
      s.Moved s' (ws0.length + 1 + ws.length + if c = 93 then 1 else 0) := by
  unfold enoughFuel at hf
  exact RJ.nextArray_complete h hc (by omega) hl hr ((ws_iff _).mpr hw0) ((ws_iff _).mpr hw) (isAsciiWs_false hcs hff)

/-- **C17** (`array_step`): at the end of the array. -/
theorem C17_array_step_end (s : RJ) (fuel : Nat) (h : s.Sync) (hl : 2 ≤ s.b.buf.length) (hc : s.b.reader.Clean)
    (hf : enoughFuel s fuel) (ws t : Bytes) (hr : s.rest = ws ++ 93 :: t) (hw : Spaces ws) :
    ∃ s', s.arrayStep fuel = (s', .ok none) ∧ s.Moved s' (ws.length + 1) := by
  unfold enoughFuel at hf
  exact RJ.arrayStep_end h hc (by omega) hl hr ((ws_iff _).mpr hw)

/-- **C17** (`array_step`), partial as above: in front of a further element. -/
theorem C17_array_step_comma_partial (s : RJ) (fuel : Nat) (h : s.Sync) (hl : 2 ≤ s.b.buf.length)
    (hc : s.b.reader.Clean) (hf : enoughFuel s fuel) (ws ws2 : Bytes) (c : Byte) (t : Bytes)
    (hr : s.rest = ws ++ 44 :: (ws2 ++ c :: t)) (hw : Spaces ws) (hw2 : Spaces ws2) (hcs : ¬ Space c) (hff : c ≠ 12)
    (h93 : c ≠ 93) :
    ∃ s', s.arrayStep fuel = (s', .ok (some c)) ∧ s.Moved s' (ws.length + 1 + ws2.length) := by
  unfold enoughFuel at hf
  exact RJ.arrayStep_comma h hc (by omega) hl hr ((ws_iff _).mpr hw) ((ws_iff _).mpr hw2) (isAsciiWs_false hcs hff) h93

/-- The states of `Props.lean` meet the hypotheses: on ` [12 , 3]` in three chunks and a buffer of four bytes. -/
example : exNew.Sync ∧ exNew.rest = [32] ++ 91 :: ([] ++ 49 :: [50, 32, 44, 32, 51, 93]) ∧
    ∃ s', exNew.nextArray 20 = (s', .ok (some 49)) := ⟨sync_new _ _, by decide, _, rfl⟩

example : exMid.Sync ∧ exMid.rest = [32] ++ 44 :: ([32] ++ 51 :: [93]) ∧
    ∃ s', exMid.arrayStep 20 = (s', .ok (some 51)) := ⟨exMid_sync, by decide, _, rfl⟩

/-! ## C17: `null`, `true`, `false` -/

/-- **C17** (`known_null`): positioned on `null`. -/
theorem C17_known_null (s : RJ) (fuel : Nat) (h : s.Sync) (hl : 4 ≤ s.b.buf.length) (hc : s.b.reader.Clean)
    (hf : enoughFuel s fuel) (t : Bytes) (hr : s.rest = 110 :: 117 :: 108 :: 108 :: t) :
    ∃ s', s.knownNull fuel = (s', .ok ()) ∧ s.Moved s' 4 := by
  unfold enoughFuel at hf
  exact call_known Jiter.knownNull_prefix h hc (by omega) hr (by decide)
    (by simp [Jiter.knownNull, Jiter.consumeIdent, Jiter.matchIdent]) hl

/-- **C17** (`next_null`): whitespace and `null`. -/
theorem C17_next_null (s : RJ) (fuel : Nat) (h : s.Sync) (hl : 4 ≤ s.b.buf.length) (hc : s.b.reader.Clean)
    (hf : enoughFuel s fuel) (ws t : Bytes) (hr : s.rest = ws ++ 110 :: 117 :: 108 :: 108 :: t) (hw : Spaces ws) :
    ∃ s', s.nextNull fuel = (s', .ok ()) ∧ s.Moved s' (ws.length + 4) := by
  unfold enoughFuel at hf
  exact call_next Jiter.nextNull_next Jiter.knownNull_prefix h hc (by omega) hr ((ws_iff _).mpr hw) (by decide) (by simp)
    (by simp [Jiter.knownNull, Jiter.consumeIdent, Jiter.matchIdent]) hl

/-- **C17** (`known_bool`): positioned on `true`. -/
theorem C17_known_true (s : RJ) (fuel : Nat) (h : s.Sync) (hl : 4 ≤ s.b.buf.length) (hc : s.b.reader.Clean)
    (hf : enoughFuel s fuel) (t : Bytes) (hr : s.rest = 116 :: 114 :: 117 :: 101 :: t) :
    ∃ s', s.knownBool fuel 116 = (s', .ok true) ∧ s.Moved s' 4 := by
  unfold enoughFuel at hf
  exact call_known (Jiter.knownBool_prefix 116) h hc (by omega) hr (by decide)
    (by simp [Jiter.knownBool, Jiter.consumeIdent, Jiter.matchIdent]) hl

/-- **C17** (`known_bool`): positioned on `false`. -/
theorem C17_known_false (s : RJ) (fuel : Nat) (h : s.Sync) (hl : 5 ≤ s.b.buf.length) (hc : s.b.reader.Clean)
    (hf : enoughFuel s fuel) (t : Bytes) (hr : s.rest = 102 :: 97 :: 108 :: 115 :: 101 :: t) :
    ∃ s', s.knownBool fuel 102 = (s', .ok false) ∧ s.Moved s' 5 := by
  unfold enoughFuel at hf
  exact call_known (Jiter.knownBool_prefix 102) h hc (by omega) hr (by decide)
    (by simp [Jiter.knownBool, Jiter.consumeIdent, Jiter.matchIdent]) hl

/-- **C17** (`next_bool`): whitespace and `true` or `false`. -/
theorem C17_next_bool (s : RJ) (fuel : Nat) (h : s.Sync) (hl : 5 ≤ s.b.buf.length) (hc : s.b.reader.Clean)
    (hf : enoughFuel s fuel) (ws t : Bytes) (hw : Spaces ws) :
    (s.rest = ws ++ 116 :: 114 :: 117 :: 101 :: t →
      ∃ s', s.nextBool fuel = (s', .ok true) ∧ s.Moved s' (ws.length + 4)) ∧
    (s.rest = ws ++ 102 :: 97 :: 108 :: 115 :: 101 :: t →
      ∃ s', s.nextBool fuel = (s', .ok false) ∧ s.Moved s' (ws.length + 5)) := by
  unfold enoughFuel at hf
  refine ⟨fun hr => ?_, fun hr => ?_⟩
  · exact call_next Jiter.nextBool_next (Jiter.knownBool_prefix 116) h hc (by omega) hr ((ws_iff _).mpr hw) (by decide) (by simp)
      (by simp [Jiter.knownBool, Jiter.consumeIdent, Jiter.matchIdent]) (by omega)
  · exact call_next Jiter.nextBool_next (Jiter.knownBool_prefix 102) h hc (by omega) hr ((ws_iff _).mpr hw) (by decide) (by simp)
      (by simp [Jiter.knownBool, Jiter.consumeIdent, Jiter.matchIdent]) (by omega)

/-- `null,` in chunks of two bytes; ` false` in single bytes. -/
example : ∃ s', (RJ.new [.data 110 [117], .data 108 [108], .data 44 []] [0, 0, 0, 0]).knownNull 20 = (s', .ok ()) ∧
    s'.rest = [44] := ⟨_, rfl, by decide⟩

example : ∃ s', (RJ.new [.data 32 [], .data 102 [], .data 97 [], .data 108 [], .data 115 [], .data 101 []]
    [0, 0, 0, 0, 0]).nextBool 20 = (s', .ok false) := ⟨_, rfl⟩

/-! ## C17: strings -/

/-- The calls of the two families. -/
def knownOf : Kind → Nat → RJ → RJ × Res Bytes
  | .raw, fuel, s => s.knownBytes fuel
  | .str, fuel, s => s.knownStr fuel

@[inherit_doc knownOf]
def nextOf : Kind → Nat → RJ → RJ × Res Bytes
  | .raw, fuel, s => s.nextBytes fuel
  | .str, fuel, s => s.nextStr fuel

/-- **C17** (`known_bytes`, `known_str`): positioned on a string that fits in the buffer with its quotes. -/
theorem C17_known_string (k : Kind) (s : RJ) (fuel : Nat) (h : s.Sync) (hc : s.b.reader.Clean) (hf : enoughFuel s fuel)
    (body v t : Bytes) (hv : Content k body v) (hr : s.rest = 34 :: (body ++ 34 :: t))
    (hl : body.length + 2 ≤ s.b.buf.length) :
    ∃ s', knownOf k fuel s = (s', .ok v) ∧ s.Moved s' (body.length + 2) := by
  unfold enoughFuel at hf
  cases k with
  | raw => exact call_known Jiter.knownBytes_prefix h hc (by omega) hr (by decide) (hv.parser 34 t) hl
  | str => exact call_known Jiter.knownStr_prefix h hc (by omega) hr (by decide) (hv.parser 34 t) hl

/-- **C17** (`next_bytes`, `next_str`): whitespace and a string. -/
theorem C17_next_string (k : Kind) (s : RJ) (fuel : Nat) (h : s.Sync) (hc : s.b.reader.Clean) (hf : enoughFuel s fuel)
    (ws body v t : Bytes) (hv : Content k body v) (hr : s.rest = ws ++ 34 :: (body ++ 34 :: t)) (hw : Spaces ws)
    (hl : body.length + 2 ≤ s.b.buf.length) :
    ∃ s', nextOf k fuel s = (s', .ok v) ∧ s.Moved s' (ws.length + (body.length + 2)) := by
  unfold enoughFuel at hf
  cases k with
  | raw =>
    exact call_next (Jiter.nextString_next _) Jiter.knownBytes_prefix h hc (by omega) hr ((ws_iff _).mpr hw) (by decide)
      (by simp) (hv.parser 34 t) hl
  | str =>
    exact call_next (Jiter.nextString_next _) Jiter.knownStr_prefix h hc (by omega) hr ((ws_iff _).mpr hw) (by decide)
      (by simp) (hv.parser 34 t) hl

/-- The string `aé\n` in single bytes. -/
def exStrReader : Reader :=
  [.data 32 [], .data 34 [], .data 97 [], .data 0xC3 [], .data 0xA9 [], .data 92 [], .data 110 [], .data 34 [], .data 44 []]

theorem exBody : StrBody true [97, 0xC3, 0xA9, 92, 110] ['a', 'é', '\n'] :=
  .char 'a' _ _ ⟨by decide, by decide, by decide⟩ (.char 'é' _ _ ⟨by decide, by decide, by decide⟩
    (.esc 110 '\n' _ _ (by simp [Escape]) .nil))

example : (RJ.new exStrReader (List.replicate 7 0)).rest = [32] ++ 34 :: ([97, 0xC3, 0xA9, 92, 110] ++ 34 :: [44]) ∧
    Content .str [97, 0xC3, 0xA9, 92, 110] [97, 0xC3, 0xA9, 10] ∧
    ∃ s', (RJ.new exStrReader (List.replicate 7 0)).nextStr 40 = (s', .ok [97, 0xC3, 0xA9, 10]) ∧ s'.rest = [44] :=
  ⟨by decide, .str _ _ exBody, _, rfl, by decide⟩

/-! ## C17: objects -/

/-- The calls of the two families. -/
def nextObjectOf : Kind → Nat → RJ → RJ × Res (Option Bytes)
  | .raw, fuel, s => s.nextObjectBytes fuel
  | .str, fuel, s => s.nextObject fuel

@[inherit_doc nextObjectOf]
def nextKeyOf : Kind → Nat → RJ → RJ × Res (Option Bytes)
  | .raw, fuel, s => s.nextKeyBytes fuel
  | .str, fuel, s => s.nextKey fuel

/-- **C17** (`next_object`, `next_object_bytes`): an empty object. -/
theorem C17_next_object_empty (k : Kind) (s : RJ) (fuel : Nat) (h : s.Sync) (hl : 2 ≤ s.b.buf.length)
    (hc : s.b.reader.Clean) (hf : enoughFuel s fuel) (ws0 ws t : Bytes) (hr : s.rest = ws0 ++ 123 :: (ws ++ 125 :: t))
    (hw0 : Spaces ws0) (hw : Spaces ws) :
    ∃ s', nextObjectOf k fuel s = (s', .ok none) ∧ s.Moved s' (ws0.length + 1 + ws.length + 1) := by
  unfold enoughFuel at hf
  cases k
  all_goals exact nextObject_empty_complete _ h hc (by omega) hl hr ((ws_iff _).mpr hw0) ((ws_iff _).mpr hw)

/-- **C17** (`next_object`, `next_object_bytes`), partial. Full statement: without `hsafe`; it is false, see
`C17_object_chunks`. The first key of an object is returned, the position is behind its colon. The hypothesis
`hsafe` excludes the states in which the object starts at the very start of the buffer, the key follows the brace at once and
is only partly buffered. -/
theorem C17_next_object_key_partial (k : Kind) (s : RJ) (fuel : Nat) (h : s.Sync) (hc : s.b.reader.Clean)
    (hf : enoughFuel s fuel) (ws0 ws body key ws2 t : Bytes) (hv : Content k body key)
    (hr : s.rest = ws0 ++ 123 :: (ws ++ 34 :: (body ++ 34 :: (ws2 ++ 58 :: t)))) (hw0 : Spaces ws0) (hw : Spaces ws)
    (hw2 : Spaces ws2) (hl : 1 + (body.length + ws2.length + 3) ≤ s.b.buf.length)
    (hsafe : s.jidx = 0 → ws0 = [] → ws = [] → s.b.nBytes ≤ 1 ∨ body.length + 3 ≤ s.b.nBytes) :
    ∃ s', nextObjectOf k fuel s = (s', .ok (some key)) ∧
      s.Moved s' (ws0.length + 1 + ws.length + (body.length + ws2.length + 3)) := by
  unfold enoughFuel at hf
  have hs : ObjSafe s (ws0.length + ws.length) (body.length + 2) := by
    intro h0 hp
    have := hsafe h0 (List.length_eq_zero_iff.mp (by omega)) (List.length_eq_zero_iff.mp (by omega))
    omega
  cases k
  · exact nextObject_key_complete Jiter.knownBytes_prefix h hc (by omega) hr ((ws_iff _).mpr hw0) ((ws_iff _).mpr hw)
      (hv.key hw2 t) hl (by omega) (hv.colon hw2 t) hs
  · exact nextObject_key_complete Jiter.knownStr_prefix h hc (by omega) hr ((ws_iff _).mpr hw0) ((ws_iff _).mpr hw)
      (hv.key hw2 t) hl (by omega) (hv.colon hw2 t) hs

theorem skipSpaces_here {b : Buffer} {pos : Nat} {c : Byte} {t : Bytes} (hok : b.nBytes ≤ b.buf.length) (hv : b.valid.drop pos = c :: t)
    (hc : Buffer.isAsciiWs c = false) (fuel : Nat) : b.skipSpaces (fuel + 1) pos = (b, .ok ()) := by
  have hs : b.scan Buffer.isAsciiWs pos = pos := by
    rw [Buffer.scan, hv, List.takeWhile_cons, if_neg (by simp [hc])]
    rfl
  have hlt : pos < b.nBytes := by
    have h1 := congrArg List.length hv
    rw [List.length_drop, Buffer.valid_length hok, List.length_cons] at h1
    omega
  simp only [Buffer.skipSpaces, Buffer.skipSpacesLoop, Buffer.collectWhile, Buffer.collectWhileLoop, hs, if_pos hlt,
    gt_iff_lt, Nat.lt_irrefl, if_false]

theorem nextObject_cut {known : JFn Bytes} (hk : Jiter.PrefixFn known) (s : RJ) (fuel : Nat) (h : s.Sync) {body key t : Bytes}
    (hs : known (34 :: (body ++ 34 :: t)) = (body.length + 2, .ok key)) (hj : s.jidx = 0)
    (hr : s.rest = 123 :: 34 :: (body ++ 34 :: t)) (h1 : 1 < s.b.nBytes) (h2 : s.b.nBytes < body.length + 3) :
    ∃ s', s.loopUntilSuccess (fuel + 1) (Jiter.nextObject known) (some 123) false = (s', .err ⟨.wrongType, s.currentIndex + 2⟩) := by
  have hjd := jdata_eq h
  have hjl := jdata_length h
  have hre := rest_eq h
  rw [hj, List.drop_zero] at hjd
  obtain ⟨j, hj2⟩ : ∃ j, s.b.nBytes = j + 2 := ⟨s.b.nBytes - 2, by omega⟩
  have hd : s.jdata = 123 :: 34 :: (body ++ 34 :: t).take j := by
    have e2 : s.jdata = s.rest.take s.jdata.length := by rw [hre, List.take_left]
    rw [e2, hr, hjl, hj, hj2]
    rfl
  obtain ⟨e, he, _⟩ := (hk _ _ _ hs).2.2.2 (j + 1) (by omega)
  rw [List.take_succ_cons] at he
  have hp := Jiter.peek_tok Jiter.Ws.nil (c := 123) (by decide) (34 :: (body ++ 34 :: t).take j)
  have hp2 := Jiter.peek_tok Jiter.Ws.nil (c := 34) (by decide) ((body ++ 34 :: t).take j)
  have hko := Jiter.knownObject_tok known 123 Jiter.Ws.nil (c := 34) (by decide) ((body ++ 34 :: t).take j)
  simp only [List.nil_append, List.length_nil] at hp hp2 hko
  have hok : Jiter.objectKey known (34 :: (body ++ 34 :: t).take j) = (0, .error e) := by simp only [Jiter.objectKey, he]
  rw [hok] at hko
  simp only [if_true] at hko
  have hfirst : Jiter.nextObject known s.jdata = (1, .error ⟨e.type, 0 + (1 + 0 + e.index)⟩) := by
    rw [hd]
    simp only [Jiter.nextObject, hp, if_true, List.drop_zero, hko]
  have hvalid : s.b.valid = 123 :: 34 :: (body ++ 34 :: t).take j := by rw [← hjd, hd]
  have hsk0 := skipSpaces_here (pos := 0) h.ok (by rw [List.drop_zero]; exact hvalid) (by decide) fuel
  have hsk1 := skipSpaces_here (pos := 1) (c := 34) (t := (body ++ 34 :: t).take j) h.ok (by rw [hvalid]; rfl) (by decide) fuel
  have hb0 : s.b.buf[0]? = some 123 := by
    have := congrArg (fun l => l[0]?) hvalid
    simp only [Buffer.valid, List.getElem?_cons_zero] at this
    rw [List.getElem?_take_of_lt (by omega)] at this
    exact this
  have hsecond : Jiter.nextObject known (34 :: (body ++ 34 :: t).take j) = (0, .error ⟨.wrongType, 0⟩) := by
    simp only [Jiter.nextObject, hp2, if_neg (by decide : ¬ (34 : Byte) = 123)]
  have hjd2 : ({ s with jidx := s.jidx + 1 } : RJ).jdata = 34 :: (body ++ 34 :: t).take j := by
    rw [RJ.jdata, ← List.drop_drop]
    show s.jdata.drop 1 = _
    rw [hd]; rfl
  have hch : isChanged s.b s.b = false := by simp [isChanged]
  have hfeed : ({ s with jidx := s.jidx + 1 } : RJ).skipSpacesFeeding (fuel + 1) s.jidx (some 123) = ({ s with jidx := s.jidx + 1 }, .ok ()) := by
    simp only [skipSpacesFeeding, hj, gt_iff_lt, Nat.lt_irrefl, if_false, hsk0, if_neg (by omega : ¬ s.b.nBytes ≤ 0), hb0, hsk1,
      hch, Bool.false_eq_true, ite_self]
  refine ⟨{ s with jidx := s.jidx + 1 + 0 }, ?_⟩
  simp only [loopUntilSuccess, RJ.call, hfirst]
  rw [hfeed]
  simp only [retryLoop, RJ.call, hjd2, hsecond, canRetry, Bool.not_false, if_true, mkErr, Err.fromJiter, currentIndex,
    ErrType.ofJ, Prod.mk.injEq, Res.err.injEq, Err.mk.injEq, true_and]
  omega

/-- **C17, the false part** (`next_object`, `next_object_bytes`). In all states that `hsafe` of `C17_next_object_key_partial` excludes
the call fails. -/
theorem C17_next_object_key_cut (k : Kind) (s : RJ) (fuel : Nat) (h : s.Sync) (hf : enoughFuel s fuel) (body key t : Bytes)
    (hv : Content k body key) (hr : s.rest = 123 :: 34 :: (body ++ 34 :: t)) (hj : s.jidx = 0) (h1 : 1 < s.b.nBytes)
    (h2 : s.b.nBytes < body.length + 3) : ∃ s', nextObjectOf k fuel s = (s', .err ⟨.wrongType, s.currentIndex + 2⟩) := by
  unfold enoughFuel at hf
  obtain ⟨f, rfl⟩ : ∃ f, fuel = f + 1 := ⟨fuel - 1, by omega⟩
  cases k
  · exact nextObject_cut Jiter.knownBytes_prefix s f h (hv.parser 34 t) hj hr h1 h2
  · exact nextObject_cut Jiter.knownStr_prefix s f h (hv.parser 34 t) hj hr h1 h2

/-- **C17**, exactly when `next_object` and `next_object_bytes` return the first key of an object that fits in the buffer. -/
theorem C17_next_object_key_exact (k : Kind) (s : RJ) (fuel : Nat) (h : s.Sync) (hc : s.b.reader.Clean)
    (hf : enoughFuel s fuel) (ws0 ws body key ws2 t : Bytes) (hv : Content k body key)
    (hr : s.rest = ws0 ++ 123 :: (ws ++ 34 :: (body ++ 34 :: (ws2 ++ 58 :: t)))) (hw0 : Spaces ws0) (hw : Spaces ws)
    (hw2 : Spaces ws2) (hl : 1 + (body.length + ws2.length + 3) ≤ s.b.buf.length) :
    (∃ s', nextObjectOf k fuel s = (s', .ok (some key)) ∧
      s.Moved s' (ws0.length + 1 + ws.length + (body.length + ws2.length + 3))) ↔
    ¬ (s.jidx = 0 ∧ ws0 = [] ∧ ws = [] ∧ 1 < s.b.nBytes ∧ s.b.nBytes < body.length + 3) := by
  constructor
  · rintro ⟨s', e, _⟩ ⟨hj, rfl, rfl, h1, h2⟩
    obtain ⟨s2, e2⟩ := C17_next_object_key_cut k s fuel h hf body key _ hv hr hj h1 h2
    rw [e] at e2
    simp at e2
  · intro hn
    refine C17_next_object_key_partial k s fuel h hc hf ws0 ws body key ws2 t hv hr hw0 hw hw2 hl ?_
    intro hj h0 h1
    by_cases h2 : s.b.nBytes ≤ 1
    · exact .inl h2
    · right
      by_cases h3 : body.length + 3 ≤ s.b.nBytes
      · exact h3
      · exact absurd ⟨hj, h0, h1, by omega, by omega⟩ hn

/-- Both cases occur, with a key in one and in two pieces. -/
example : (∃ s s' : RJ, s.Sync ∧ s.rest = 123 :: 34 :: ([102, 111] ++ 34 :: [58]) ∧ s.jidx = 0 ∧ s.b.nBytes = 4 ∧
      nextObjectOf .raw 40 s = (s', .err ⟨.wrongType, 2⟩)) ∧
    ∃ s s' : RJ, s.Sync ∧ s.rest = 123 :: 34 :: ([102, 111] ++ 34 :: [58]) ∧ s.jidx = 0 ∧ s.b.nBytes = 5 ∧
      nextObjectOf .raw 40 s = (s', .ok (some [102, 111])) :=
  ⟨⟨⟨⟨[.data 34 [58]], [123, 34, 102, 111, 0, 0, 0, 0], 4, 0, 0, 0⟩, 4, 0⟩, _, by constructor <;> decide, by decide, rfl, rfl, rfl⟩,
   ⟨⟨[.data 58 []], [123, 34, 102, 111, 34, 0, 0, 0], 5, 0, 0, 0⟩, 5, 0⟩, _, by constructor <;> decide, by decide, rfl, rfl, rfl⟩

/-- **C17** (`known_object`): positioned on an empty object. -/
theorem C17_known_object_empty (s : RJ) (fuel : Nat) (h : s.Sync) (hl : 2 ≤ s.b.buf.length)
    (hc : s.b.reader.Clean) (hf : enoughFuel s fuel) (ws t : Bytes) (hr : s.rest = 123 :: (ws ++ 125 :: t)) (hw : Spaces ws) :
    ∃ s', s.knownObject fuel = (s', .ok none) ∧ s.Moved s' (1 + ws.length + 1) := by
  unfold enoughFuel at hf
  exact knownObject_empty_complete _ h hc (by omega) hl hr ((ws_iff _).mpr hw)

/-- **C17** (`known_object`), partial in the same way. -/
theorem C17_known_object_key_partial (s : RJ) (fuel : Nat) (h : s.Sync) (hc : s.b.reader.Clean)
    (hf : enoughFuel s fuel) (ws body key ws2 t : Bytes) (hv : Content .str body key)
    (hr : s.rest = 123 :: (ws ++ 34 :: (body ++ 34 :: (ws2 ++ 58 :: t)))) (hw : Spaces ws)
    (hw2 : Spaces ws2) (hl : 1 + (body.length + ws2.length + 3) ≤ s.b.buf.length)
    (hsafe : s.jidx = 0 → ws = [] → s.b.nBytes ≤ 1 ∨ body.length + 3 ≤ s.b.nBytes) :
    ∃ s', s.knownObject fuel = (s', .ok (some key)) ∧
      s.Moved s' (1 + ws.length + (body.length + ws2.length + 3)) := by
  unfold enoughFuel at hf
  exact knownObject_known_complete Jiter.knownStr_prefix h hc (by omega) hr ((ws_iff _).mpr hw) (hv.key hw2 t) hl
    (by omega) (hv.colon hw2 t) (fun h0 hp => by
      have := hsafe h0 (List.length_eq_zero_iff.mp hp)
      omega)

/-- **C17** (`next_key`, `next_key_bytes`): at the end of the object. -/
theorem C17_next_key_end (k : Kind) (s : RJ) (fuel : Nat) (h : s.Sync) (hl : 2 ≤ s.b.buf.length)
    (hc : s.b.reader.Clean) (hf : enoughFuel s fuel) (ws t : Bytes) (hr : s.rest = ws ++ 125 :: t) (hw : Spaces ws) :
    ∃ s', nextKeyOf k fuel s = (s', .ok none) ∧ s.Moved s' (ws.length + 1) := by
  unfold enoughFuel at hf
  cases k
  all_goals exact nextKey_end_complete _ h hc (by omega) hl hr ((ws_iff _).mpr hw)

/-- **C17** (`next_key`, `next_key_bytes`): in front of a further member. -/
theorem C17_next_key (k : Kind) (s : RJ) (fuel : Nat) (h : s.Sync) (hc : s.b.reader.Clean)
    (hf : enoughFuel s fuel) (ws0 ws body key ws2 t : Bytes) (hv : Content k body key)
    (hr : s.rest = ws0 ++ 44 :: (ws ++ 34 :: (body ++ 34 :: (ws2 ++ 58 :: t)))) (hw0 : Spaces ws0) (hw : Spaces ws)
    (hw2 : Spaces ws2) (hl : 1 + (body.length + ws2.length + 3) ≤ s.b.buf.length) :
    ∃ s', nextKeyOf k fuel s = (s', .ok (some key)) ∧
      s.Moved s' (ws0.length + 1 + ws.length + (body.length + ws2.length + 3)) := by
  unfold enoughFuel at hf
  cases k
  · exact nextKey_key_complete Jiter.knownBytes_prefix h hc (by omega) hr ((ws_iff _).mpr hw0) ((ws_iff _).mpr hw)
      (hv.key hw2 t) hl
  · exact nextKey_key_complete Jiter.knownStr_prefix h hc (by omega) hr ((ws_iff _).mpr hw0) ((ws_iff _).mpr hw)
      (hv.key hw2 t) hl

/-- `{"fo":1, "b" : 2}` on a new `RJiter`, in chunks of three bytes: the first key, the value, the second key. -/
def exObj : RJ := .new [.data 123 [34, 102], .data 111 [34, 58], .data 49 [44, 32], .data 34 [98, 34],
  .data 32 [58, 32], .data 50 [125]] (List.replicate 8 0)

example : exObj.rest = [] ++ 123 :: ([] ++ 34 :: ([102, 111] ++ 34 :: ([] ++ 58 :: exObj.rest.drop 6))) ∧
    exObj.b.nBytes ≤ 1 ∧ ∃ s', exObj.nextObjectBytes 40 = (s', .ok (some [102, 111])) ∧ s'.currentIndex = 6 :=
  ⟨by decide, by decide, _, rfl, by decide⟩

example : ∃ s s', ((exObj.nextObjectBytes 40).1.nextNumberBytes 40).1 = s ∧
    s.rest = [] ++ 44 :: ([32] ++ 34 :: ([98] ++ 34 :: ([32] ++ 58 :: [32, 50, 125]))) ∧
    s.nextKeyBytes 40 = (s', .ok (some [98])) := ⟨_, _, rfl, by decide, rfl⟩

/-- **C17, the false part.** The document `{"foo":1}` in two chunks: `{"fo` and `o":1}`. After a `peek`, which
shows the `{`, `next_object_bytes` fails with `WrongType`; on the complete document it returns the key. -/
theorem C17_object_chunks : ∃ s s' : RJ, ∃ x,
    History (.new [.data 123 [34, 102, 111], .data 111 [34, 58, 49, 125]] (List.replicate 20 0)) [.peek] s ∧
    s.rest = 123 :: 34 :: ([102, 111, 111] ++ 34 :: 58 :: [49, 125]) ∧
    ∀ fuel, 10 ≤ fuel → s.nextObjectBytes fuel = (s', .err ⟨.wrongType, x⟩) := by
  refine ⟨((RJ.new [.data 123 [34, 102, 111], .data 111 [34, 58, 49, 125]] (List.replicate 20 0)).peek 40).1, ?a, ?b, ?hist, by decide, ?run⟩
  case run =>
    intro fuel hf
    obtain ⟨fuel, rfl⟩ : ∃ m, fuel = m + 10 := ⟨fuel - 10, by omega⟩
    exact rfl
  case hist =>
    exact .cons (fuel := 40) (r := .ok ()) (by unfold enoughFuel; decide) rfl (.ok _) (.nil _)

/-- **C17, the false part.** The document `{"}x":1}` in two chunks: `{"}` and `x":1}`. After a `peek`,
`known_object` reports an empty object. -/
theorem C17_object_false_end : ∃ s s' : RJ,
    History (.new [.data 123 [34, 125], .data 120 [34, 58, 49, 125]] (List.replicate 20 0)) [.peek] s ∧
    s.rest = 123 :: 34 :: ([125, 120] ++ 34 :: 58 :: [49, 125]) ∧
    ∀ fuel, 10 ≤ fuel → s.knownObject fuel = (s', .ok none) := by
  refine ⟨((RJ.new [.data 123 [34, 125], .data 120 [34, 58, 49, 125]] (List.replicate 20 0)).peek 40).1, ?a, ?hist, by decide, ?run⟩
  case run =>
    intro fuel hf
    obtain ⟨fuel, rfl⟩ : ∃ m, fuel = m + 10 := ⟨fuel - 10, by omega⟩
    exact rfl
  case hist =>
    exact .cons (fuel := 40) (r := .ok ()) (by unfold enoughFuel; decide) rfl (.ok _) (.nil _)

/-! ## C18 -/

/-- **C18.** A number that is followed by a byte that does not continue it is returned whole, if it fits in the
buffer with one byte to spare. -/
theorem C18_number_whole (s : RJ) (fuel : Nat) (h : s.Sync) (hc : s.b.reader.Clean) (hf : enoughFuel s fuel)
    (ws num t : Bytes) (hnum : Number num) (hend : EndsNumber t) (ht : t ≠ []) (hr : s.rest = ws ++ (num ++ t))
    (hw : Spaces ws) (hl : num.length + 1 ≤ s.b.buf.length) :
    ∃ s', s.nextNumberBytes fuel = (s', .ok num) ∧ s.Moved s' (ws.length + num.length) := by
  unfold enoughFuel at hf
  have htok := Jiter.numberTok_spec hnum hend
  obtain ⟨c, r, rfl, hcc⟩ := Jiter.number_head hnum
  refine RJ.nextNumberBytes_complete h hc (by omega) hr ((ws_iff _).mpr hw) hcc htok ?_ hl
  have : 0 < t.length := List.length_pos_iff.mpr ht
  simp; omega

/-- ` -1.5e+10,` in single bytes. -/
example : Number [45, 49, 46, 53, 101, 43, 49, 48] ∧ EndsNumber [44] ∧
    ∃ s', (RJ.new [.data 32 [], .data 45 [], .data 49 [], .data 46 [], .data 53 [], .data 101 [], .data 43 [], .data 49 [],
      .data 48 [], .data 44 []] (List.replicate 9 0)).nextNumberBytes 40 = (s', .ok [45, 49, 46, 53, 101, 43, 49, 48]) := by
  refine ⟨⟨[45], [49], [46, 53], [101, 43, 49, 48], rfl, .inr rfl, .inr ⟨⟨by simp, ?_⟩, by simp⟩,
    .inr ⟨[53], rfl, by simp, ?_⟩, .inr ⟨101, [43], [49, 48], rfl, .inl rfl, .inr (.inl rfl), by simp, ?_⟩⟩, ?_, _, rfl⟩
  · simp [Digit]
  · simp [Digit]
  · simp [Digit]
  · intro c hc; simp only [List.head?_cons, Option.some.injEq] at hc; subst hc; simp [Digit]

/-! ## C19 -/

/-- **C19, partial.** Full statement: without `hpos`; it is false, see `C19_last_number_lost`. A number at the end
of the input is returned, unless the complete number is at the very start of the buffer. -/
theorem C19_last_number_partial (s : RJ) (fuel : Nat) (h : s.Sync) (hc : s.b.reader.Clean) (hf : enoughFuel s fuel)
    (ws num : Bytes) (hnum : Number num) (hr : s.rest = ws ++ num) (hw : Spaces ws) (hl : num.length ≤ s.b.buf.length)
    (hpos : 0 < s.jidx ∨ ws ≠ [] ∨ s.b.nBytes < num.length) :
    ∃ s', s.nextNumberBytes fuel = (s', .ok num) ∧ s'.rest = [] := by
  unfold enoughFuel at hf
  obtain ⟨s', e, _, h2⟩ := RJ.nextNumberBytes_end (fuel := fuel) h hc (by omega) hr ((ws_iff _).mpr hw) hnum hl hpos
  exact ⟨s', e, h2⟩

/-- `[12`: behind the bracket the number is not at the start of the buffer. -/
example : ∃ s, History (.new [.data 91 [49, 50]] [0, 0, 0, 0]) [.nextArray] s ∧ s.rest = [49, 50] ∧ 0 < s.jidx ∧
    ∃ s', s.nextNumberBytes 20 = (s', .ok [49, 50]) :=
  ⟨((RJ.new [.data 91 [49, 50]] [0, 0, 0, 0]).nextArray 20).1,
    .cons (fuel := 20) (r := .ok ()) (by unfold enoughFuel; decide) rfl (.ok _) (.nil _), by decide, by decide, _, rfl⟩

/-- **C19, the false part.** On the document `5`, `peek` and then `next_number_bytes` fail with
`EofWhileParsingValue`. -/
theorem C19_last_number_lost : ∃ s s' : RJ, ∃ x, History (.new [.data 53 []] [0, 0, 0, 0]) [.peek] s ∧ s.rest = [53] ∧
    ∀ fuel, 10 ≤ fuel → s.nextNumberBytes fuel = (s', .err ⟨.json .eofWhileParsingValue, x⟩) := by
  refine ⟨((RJ.new [.data 53 []] [0, 0, 0, 0]).peek 20).1, ?a, ?b, ?hist, by decide, ?run⟩
  case run =>
    intro fuel hf
    obtain ⟨fuel, rfl⟩ : ∃ m, fuel = m + 10 := ⟨fuel - 10, by omega⟩
    exact rfl
  case hist =>
    exact .cons (fuel := 20) (r := .ok ()) (by unfold enoughFuel; decide) rfl (.ok _) (.nil _)

/-! ## C41 -/

/-- **C41 is false.** A call that fails on the complete document must fail on the stream, too. But `array_step` on
`,]` returns `Ok(None)`: the first attempt fails with `TrailingComma`, but has consumed the comma; the second
attempt sees only the `]`. -/
theorem C41_trailing_comma_accepted : ∃ s s' : RJ,
    History (.new [.data 49 [44, 93]] [0, 0, 0, 0]) [.peek, .skipNBytes 1] s ∧ s.rest = [44, 93] ∧
    (Jiter.arrayStep [44, 93]).2 = .error ⟨.json .trailingComma, 1⟩ ∧
    ∀ fuel, 10 ≤ fuel → s.arrayStep fuel = (s', .ok none) ∧ s'.rest = [] := by
  refine ⟨(((RJ.new [.data 49 [44, 93]] [0, 0, 0, 0]).peek 20).1.skipNBytes 20 1).1, ?a, ?hist, by decide, rfl, ?run⟩
  case run =>
    intro fuel hf
    obtain ⟨fuel, rfl⟩ : ∃ m, fuel = m + 10 := ⟨fuel - 10, by omega⟩
    constructor
    · exact rfl
    · exact rfl
  case hist =>
    exact .cons (fuel := 20) (r := .ok ()) (by unfold enoughFuel; decide) rfl (.ok _)
      (.cons (fuel := 20) (r := .ok ()) (by unfold enoughFuel; decide) rfl (.ok _) (.nil _))

/-! ## C42 -/

/-- **C42 is false.** A failed `lookahead_n` should not change what later calls return. But on `123,4567` with
a buffer of four bytes, of which `12` are buffered: `lookahead_n(5)` fails with `BufferFull`, as it must; then
`next_number_bytes` returns `12`. Without the lookahead it returns `123`. -/
theorem C42_truncated_after_lookahead : ∃ s s1 s2 s3 : RJ, ∃ x,
    History (.new [.data 49 [50], .data 51 [44, 52, 53, 54, 55]] [0, 0, 0, 0]) [.peek] s ∧
    ∀ fuel, 10 ≤ fuel → s.lookaheadN fuel 5 = (s1, .err ⟨.bufferFull, x⟩) ∧
      s1.nextNumberBytes fuel = (s2, .ok [49, 50]) ∧ s.nextNumberBytes fuel = (s3, .ok [49, 50, 51]) := by
  refine ⟨((RJ.new [.data 49 [50], .data 51 [44, 52, 53, 54, 55]] [0, 0, 0, 0]).peek 20).1, ?a, ?b, ?c, ?d, ?hist, ?run⟩
  case run =>
    intro fuel hf
    obtain ⟨fuel, rfl⟩ : ∃ m, fuel = m + 10 := ⟨fuel - 10, by omega⟩
    refine ⟨?_, ?_, ?_⟩
    · exact rfl
    · exact rfl
    · exact rfl
  case hist =>
    exact .cons (fuel := 40) (r := .ok ()) (by unfold enoughFuel; decide) rfl (.ok _) (.nil _)

end Verif.RJiter
