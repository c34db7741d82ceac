import Verif.RJiter.PropsLong
import Verif.RJiter.OpLemmas
import Verif.Scan.WholeNum

/-!
# Properties of the calls that read or skip a whole value (C67, C68)
-/

namespace Verif.Scan

open Verif.RJiter

/-! ## C67: a value that fits into the buffer is read, whatever the chunks are -/

/-- **C67** (`next_value`, `next_value_owned`): the next value of the stream, however it is cut into chunks, is returned with its
strings decoded. It must fit into the buffer with one byte to spare, be followed by something, and be nested at most 200
levels deep. -/
theorem C67_next_value (s : RJ) (fuel : Nat) (h : s.Sync) (hc : s.b.reader.Clean) (hf : enoughFuel s fuel) (ws t : Bytes)
    (v : Val) (x : JsonValue) (hr : s.rest = ws ++ (v.text ++ t)) (hw : Spaces ws) (hg : v.Gives .value .value x)
    (hd : v.nesting ≤ 200) (hs : Stops v t) (ht : t ≠ []) (hl : v.text.length + 1 ≤ s.b.buf.length) :
    ∃ s', s.nextValue fuel = (s', .ok x) ∧ s.Moved s' (ws.length + v.text.length) := by
  unfold enoughFuel at hf
  exact (nextWhole_call decodes_value h hc (by omega) hr hw hg hd hs).1 ht hl

/-- **C67** (`next_skip`): as `C67_next_value`; strings only have to be well-formed. -/
theorem C67_next_skip (s : RJ) (fuel : Nat) (h : s.Sync) (hc : s.b.reader.Clean) (hf : enoughFuel s fuel) (ws t : Bytes)
    (v : Val) (hr : s.rest = ws ++ (v.text ++ t)) (hw : Spaces ws) (hg : v.Gives .skip .unit ()) (hd : v.nesting ≤ 200)
    (hs : Stops v t) (ht : t ≠ []) (hl : v.text.length + 1 ≤ s.b.buf.length) :
    ∃ s', s.nextSkip fuel = (s', .ok ()) ∧ s.Moved s' (ws.length + v.text.length) := by
  unfold enoughFuel at hf
  exact (nextWhole_call decodes_skip h hc (by omega) hr hw hg hd hs).1 ht hl

/-- **C67** (`next_int`, `next_number`, `next_float`). -/
theorem C67_next_numbers (s : RJ) (fuel : Nat) (h : s.Sync) (hc : s.b.reader.Clean) (hf : enoughFuel s fuel) (ws tok t : Bytes)
    (hr : s.rest = ws ++ (tok ++ t)) (hw : Spaces ws) (hn : Number tok) (he : EndsNumber t) (ht : t ≠ [])
    (hl : tok.length + 1 ≤ s.b.buf.length) :
    (IsInt tok → ∃ s', s.nextInt fuel = (s', .ok tok) ∧ s.Moved s' (ws.length + tok.length)) ∧
    (ShortInt tok → ∃ s', s.nextNumber fuel = (s', .ok tok) ∧ s.Moved s' (ws.length + tok.length)) ∧
    ∃ s', s.nextFloat fuel = (s', .ok tok) ∧ s.Moved s' (ws.length + tok.length) := by
  unfold enoughFuel at hf
  exact ⟨fun hi => (nextNum_call numbers_int h hc (by omega) hr hw hn hi he).1 ht hl,
    fun hi => (nextNum_call numbers_any h hc (by omega) hr hw hn hi he).1 ht hl,
    (nextNum_call numbers_tok h hc (by omega) hr hw hn trivial he).1 ht hl⟩

/-- **C67, partial** (`known_value`, `known_value_owned`). Full statement: without `hpos`. It is false, see
`C67_known_value_fails` and `C67_known_value_wrong`. -/
theorem C67_known_value_partial (s : RJ) (fuel : Nat) (h : s.Sync) (hc : s.b.reader.Clean) (hf : enoughFuel s fuel) (t : Bytes)
    (v : Val) (x : JsonValue) (pk : Byte) (hr : s.rest = v.text ++ t) (hpk : v.text.head? = some pk)
    (hg : v.Gives .value .value x) (hd : v.nesting ≤ 200) (hs : Stops v t)
    (hpos : (∃ tok, v = .atom tok) ∨ 0 < s.jidx ∨ v.text.length ≤ s.b.nBytes)
    (ht : t ≠ []) (hl : v.text.length + 1 ≤ s.b.buf.length) :
    ∃ s', s.knownValue fuel pk = (s', .ok x) ∧ s.Moved s' v.text.length := by
  unfold enoughFuel at hf
  obtain ⟨tl, hpk⟩ := List.head?_eq_some_iff.mp hpk
  exact (knownWhole_call decodes_value h hc (by omega) hr hpk hg hd hs hpos).1 ht hl

/-- **C67, partial** (`known_skip`). Full statement: without `hpos`. It is false, see `C67_known_skip_wrong`. -/
theorem C67_known_skip_partial (s : RJ) (fuel : Nat) (h : s.Sync) (hc : s.b.reader.Clean) (hf : enoughFuel s fuel) (t : Bytes)
    (v : Val) (pk : Byte) (hr : s.rest = v.text ++ t) (hpk : v.text.head? = some pk)
    (hg : v.Gives .skip .unit ()) (hd : v.nesting ≤ 200) (hs : Stops v t)
    (hpos : (∃ tok, v = .atom tok) ∨ 0 < s.jidx ∨ v.text.length ≤ s.b.nBytes)
    (ht : t ≠ []) (hl : v.text.length + 1 ≤ s.b.buf.length) :
    ∃ s', s.knownSkip fuel pk = (s', .ok ()) ∧ s.Moved s' v.text.length := by
  unfold enoughFuel at hf
  obtain ⟨tl, hpk⟩ := List.head?_eq_some_iff.mp hpk
  exact (knownWhole_call decodes_skip h hc (by omega) hr hpk hg hd hs hpos).1 ht hl

/-- **C67** (`known_int`, `known_number`, `known_float`). -/
theorem C67_known_numbers (s : RJ) (fuel : Nat) (h : s.Sync) (hc : s.b.reader.Clean) (hf : enoughFuel s fuel) (tok t : Bytes)
    (pk : Byte) (hr : s.rest = tok ++ t) (hpk : tok.head? = some pk) (hn : Number tok) (he : EndsNumber t) (ht : t ≠ [])
    (hl : tok.length + 1 ≤ s.b.buf.length) :
    (IsInt tok → ∃ s', s.knownInt fuel pk = (s', .ok tok) ∧ s.Moved s' tok.length) ∧
    (ShortInt tok → ∃ s', s.knownNumber fuel pk = (s', .ok tok) ∧ s.Moved s' tok.length) ∧
    ∃ s', s.knownFloat fuel pk = (s', .ok tok) ∧ s.Moved s' tok.length := by
  unfold enoughFuel at hf
  obtain ⟨tl, hpk⟩ := List.head?_eq_some_iff.mp hpk
  exact ⟨fun hi => (knownNum_call numbers_int h hc (by omega) hr hpk hn hi he).1 ht hl,
    fun hi => (knownNum_call numbers_any h hc (by omega) hr hpk hn hi he).1 ht hl,
    (knownNum_call numbers_tok h hc (by omega) hr hpk hn trivial he).1 ht hl⟩

/-- The document of the examples: `[1, {"a": "b"}]`. -/
def exWhole : Val :=
  .arr [] (.cons [] (.atom [49]) [] (.cons [32] (.obj [] (.cons [] [97] [] [32] (.atom [34, 98, 34]) [] .nil)) [] .nil))

/-- Its value. -/
def exWholeValue : JsonValue := .arr [.num [49], .obj [([97], .str [98])]]

theorem exWhole_gives : exWhole.Gives .value .value exWholeValue ∧ exWhole.Gives .skip .unit () := by
  have h1 : Number [49] := ⟨[], [49], [], [], rfl, .inl rfl, .inr ⟨⟨by simp, by simp [Digit]⟩, by simp⟩, .inl rfl, .inl rfl⟩
  have h2 : ShortInt [49] := ⟨[], [49], [], rfl, .inl rfl, .inr ⟨⟨by simp, by simp [Digit]⟩, by simp⟩, by simp, by simp⟩
  have ha : StrBody true [97] ['a'] := .char 'a' [] [] (by unfold PlainChar; decide) .nil
  have hb : StrBody true [98] ['b'] := .char 'b' [] [] (by unfold PlainChar; decide) .nil
  have ra : RawBody [97] := .char 'a' [] (by unfold PlainChar; decide) .nil
  have rb : RawBody [98] := .char 'b' [] (by unfold PlainChar; decide) .nil
  have s0 : Spaces [] := by simp [Spaces]
  have s1 : Spaces [32] := by simp [Spaces, Space]
  constructor
  · refine ⟨s0, _, ⟨s0, s0, .num [49], _, .number [49] h1 h2, ⟨s1, s0, .obj [([97], .str [98])], _, ⟨s0, _, ⟨s0, s0, s1, s0, [97], .str [98], [],
      ⟨['a'], ha, rfl⟩, .string [98] [98] ⟨['b'], hb, rfl⟩, rfl, rfl⟩, rfl⟩, rfl, rfl⟩, rfl⟩, rfl⟩
  · refine ⟨s0, _, ⟨s0, s0, (), _, .number [49] h1 trivial, ⟨s1, s0, (), _, ⟨s0, _, ⟨s0, s0, s1, s0, [97], (), [],
      ⟨ra, rfl⟩, .string [98] [98] ⟨rb, rfl⟩, rfl, rfl⟩, rfl⟩, rfl, rfl⟩, rfl⟩, rfl⟩

/-- In single bytes, behind a space and in front of a comma. -/
def exWholeSt : RJ := .new (oneByOne (32 :: (exWhole.text ++ [44]))) (List.replicate 16 0)

example : ∃ s', exWholeSt.nextValue 60 = (s', .ok exWholeValue) ∧ exWholeSt.Moved s' (1 + exWhole.text.length) :=
  C67_next_value _ 60 (sync_new _ _) (by decide) (by unfold enoughFuel; decide) [32] [44] exWhole _ (by decide) (by simp [Spaces, Space])
    exWhole_gives.1 (by decide) trivial (by simp) (by decide)

example : ∃ s', exWholeSt.nextSkip 60 = (s', .ok ()) ∧ exWholeSt.Moved s' (1 + exWhole.text.length) :=
  C67_next_skip _ 60 (sync_new _ _) (by decide) (by unfold enoughFuel; decide) [32] [44] exWhole (by decide) (by simp [Spaces, Space])
    exWhole_gives.2 (by decide) trivial (by simp) (by decide)

/-- Behind the bracket of `[[1, {"a": "b"}],`. -/
def exWholeSt1 : RJ := ((RJ.new (oneByOne (91 :: (exWhole.text ++ [44]))) (List.replicate 17 0)).nextArray 60).1

theorem exWholeSt1_sync : exWholeSt1.Sync ∧ exWholeSt1.b.reader.Clean ∧ enoughFuel exWholeSt1 60 ∧
    exWholeSt1.rest = exWhole.text ++ [44] ∧ 0 < exWholeSt1.jidx ∧ exWhole.text.length + 1 ≤ exWholeSt1.b.buf.length :=
  ⟨⟨by decide +kernel, by decide +kernel, by decide +kernel⟩, by decide +kernel, by unfold enoughFuel; decide +kernel,
    by decide +kernel, by decide +kernel, by decide +kernel⟩

example : ∃ s', exWholeSt1.knownValue 60 91 = (s', .ok exWholeValue) ∧ exWholeSt1.Moved s' exWhole.text.length :=
  let ⟨h1, h2, h3, h4, h5, h6⟩ := exWholeSt1_sync
  C67_known_value_partial _ 60 h1 h2 h3 [44] exWhole _ 91 h4 rfl exWhole_gives.1 (by decide) trivial (.inr (.inl h5)) (by simp) h6

example : ∃ s', exWholeSt1.knownSkip 60 91 = (s', .ok ()) ∧ exWholeSt1.Moved s' exWhole.text.length :=
  let ⟨h1, h2, h3, h4, h5, h6⟩ := exWholeSt1_sync
  C67_known_skip_partial _ 60 h1 h2 h3 [44] exWhole 91 h4 rfl exWhole_gives.2 (by decide) trivial (.inr (.inl h5)) (by simp) h6

/-- The number `-12`. -/
theorem exInt : Number [45, 49, 50] ∧ IsInt [45, 49, 50] ∧ ShortInt [45, 49, 50] := by
  have hi : IntPart [49, 50] := .inr ⟨⟨by simp, by simp [Digit]⟩, by simp⟩
  exact ⟨⟨[45], [49, 50], [], [], rfl, .inr rfl, hi, .inl rfl, .inl rfl⟩, ⟨[45], [49, 50], rfl, .inr rfl, hi, by simp⟩,
    ⟨[45], [49, 50], [], rfl, .inr rfl, hi, by simp, by simp⟩⟩

/-- `-12,` in single bytes. -/
example : let s : RJ := .new (oneByOne [32, 45, 49, 50, 44]) (List.replicate 4 0)
    (∃ s', s.nextInt 60 = (s', .ok [45, 49, 50]) ∧ s.Moved s' 4) ∧ (∃ s', s.nextNumber 60 = (s', .ok [45, 49, 50]) ∧ s.Moved s' 4) ∧
      ∃ s', s.nextFloat 60 = (s', .ok [45, 49, 50]) ∧ s.Moved s' 4 :=
  let ⟨h1, h2, h3⟩ := C67_next_numbers (.new (oneByOne [32, 45, 49, 50, 44]) (List.replicate 4 0)) 60 (sync_new _ _) (by decide)
    (by unfold enoughFuel; decide) [32] [45, 49, 50] [44] (by decide) (by simp [Spaces, Space]) exInt.1 (by simp [EndsNumber, Digit])
    (by simp) (by decide)
  ⟨h1 exInt.2.1, h2 exInt.2.2, h3⟩

example : let s : RJ := .new (oneByOne [45, 49, 50, 44]) (List.replicate 4 0)
    (∃ s', s.knownInt 60 45 = (s', .ok [45, 49, 50]) ∧ s.Moved s' 3) ∧ (∃ s', s.knownNumber 60 45 = (s', .ok [45, 49, 50]) ∧ s.Moved s' 3) ∧
      ∃ s', s.knownFloat 60 45 = (s', .ok [45, 49, 50]) ∧ s.Moved s' 3 :=
  let ⟨h1, h2, h3⟩ := C67_known_numbers (.new (oneByOne [45, 49, 50, 44]) (List.replicate 4 0)) 60 (sync_new _ _) (by decide)
    (by unfold enoughFuel; decide) [45, 49, 50] [44] 45 (by decide) rfl exInt.1 (by simp [EndsNumber, Digit])
    (by simp) (by decide)
  ⟨h1 exInt.2.1, h2 exInt.2.2, h3⟩

/-- The array with one string. -/
def oneString (body : Bytes) : Val := .arr [] (.cons [] (.atom (34 :: (body ++ [34]))) [] .nil)

theorem oneString_gives {body : Bytes} {chars : List Char} (h : StrBody true body chars) :
    (oneString body).Gives .value .value (.arr [.str (encAll chars)]) := by
  have s0 : Spaces [] := by simp [Spaces]
  exact ⟨s0, _, ⟨s0, s0, _, _, .string body _ ⟨chars, h, rfl⟩, rfl, rfl⟩, rfl⟩

theorem plain_body : ∀ (chars : List Char), (∀ ch ∈ chars, PlainChar ch) → StrBody true (encAll chars) chars := by
  intro chars h
  induction chars with
  | nil => exact .nil
  | cons c l ih => exact .char c _ _ (h c (by simp)) (ih fun x hx => h x (by simp [hx]))

/-- **C67, the false part** (`known_value`). The stream is `["abc"] `, and `b` is the last byte of the first chunk. `peek` sees the
bracket; then `known_value(Peek::Array)` fails: the first attempt has consumed the bracket, and the second one takes the quote
for the bracket. -/
theorem C67_known_value_fails : ∃ s s' : RJ, ∃ x,
    History (.new [.data 91 [34, 97, 98], .data 99 [34, 93, 32]] (List.replicate 16 0)) [.peek] s ∧
    s.rest = (oneString [97, 98, 99]).text ++ [32] ∧
    (oneString [97, 98, 99]).Gives .value .value (.arr [.str [97, 98, 99]]) ∧
    ∀ fuel, 10 ≤ fuel → s.knownValue fuel 91 = (s', .err ⟨.json .expectedSomeValue, x⟩) := by
  refine ⟨((RJ.new [.data 91 [34, 97, 98], .data 99 [34, 93, 32]] (List.replicate 16 0)).peek 20).1, ?a, ?b, ?hist, by decide +kernel, ?g, ?run⟩
  case run =>
    intro fuel hf
    obtain ⟨fuel, rfl⟩ : ∃ m, fuel = m + 10 := ⟨fuel - 10, by omega⟩
    exact rfl
  case g => exact oneString_gives (body := [97, 98, 99]) (chars := ['a', 'b', 'c']) (by
    have := plain_body ['a', 'b', 'c'] (by simp [PlainChar]); exact this)
  case hist => exact .cons (fuel := 20) (r := .ok ()) (by unfold enoughFuel; decide) rfl (.ok _) (.nil _)

/-- **C67, the false part** (`known_value`, a wrong value). The stream is `["]xy"] `, and `x` is the last byte of the first chunk.
After `peek`, `known_value(Peek::Array)` returns the empty array and leaves `xy"] `. -/
theorem C67_known_value_wrong : ∃ s s' : RJ,
    History (.new [.data 91 [34, 93, 120], .data 121 [34, 93, 32]] (List.replicate 16 0)) [.peek] s ∧
    s.rest = (oneString [93, 120, 121]).text ++ [32] ∧
    (oneString [93, 120, 121]).Gives .value .value (.arr [.str [93, 120, 121]]) ∧
    ∀ fuel, 10 ≤ fuel → s.knownValue fuel 91 = (s', .ok (.arr [])) ∧ s'.rest = [120, 121, 34, 93, 32] := by
  refine ⟨((RJ.new [.data 91 [34, 93, 120], .data 121 [34, 93, 32]] (List.replicate 16 0)).peek 20).1, ?a, ?hist, by decide +kernel, ?g, ?run⟩
  case run =>
    intro fuel hf
    obtain ⟨fuel, rfl⟩ : ∃ m, fuel = m + 10 := ⟨fuel - 10, by omega⟩
    constructor
    · exact rfl
    · exact rfl
  case g => exact oneString_gives (body := [93, 120, 121]) (chars := [']', 'x', 'y']) (by
    have := plain_body [']', 'x', 'y'] (by simp [PlainChar]); exact this)
  case hist => exact .cons (fuel := 20) (r := .ok ()) (by unfold enoughFuel; decide) rfl (.ok _) (.nil _)

/-- **C67, the false part** (`known_skip`): on the same stream `known_skip(Peek::Array)` succeeds, and has skipped only `["]`. -/
theorem C67_known_skip_wrong : ∃ s s' : RJ,
    History (.new [.data 91 [34, 93, 120], .data 121 [34, 93, 32]] (List.replicate 16 0)) [.peek] s ∧
    s.rest = (oneString [93, 120, 121]).text ++ [32] ∧
    ∀ fuel, 10 ≤ fuel → s.knownSkip fuel 91 = (s', .ok ()) ∧ s'.rest = [120, 121, 34, 93, 32] := by
  refine ⟨((RJ.new [.data 91 [34, 93, 120], .data 121 [34, 93, 32]] (List.replicate 16 0)).peek 20).1, ?a, ?hist, by decide +kernel, ?run⟩
  case run =>
    intro fuel hf
    obtain ⟨fuel, rfl⟩ : ∃ m, fuel = m + 10 := ⟨fuel - 10, by omega⟩
    constructor
    · exact rfl
    · exact rfl
  case hist => exact .cons (fuel := 20) (r := .ok ()) (by unfold enoughFuel; decide) rfl (.ok _) (.nil _)

/-! ## C68: the last value of the stream -/

/-- **C68, partial** (`next_value`, `next_value_owned`, `next_skip`). Full statement: without `hpos`. It is false, see
`C68_last_value_lost`. A value at the end of the stream is read if it fits into the buffer, unless the complete value is already
at the start of the buffer. -/
theorem C68_next_partial (s : RJ) (fuel : Nat) (h : s.Sync) (hc : s.b.reader.Clean) (hf : enoughFuel s fuel) (ws : Bytes)
    (v : Val) (hr : s.rest = ws ++ v.text) (hw : Spaces ws) (hd : v.nesting ≤ 200) (hl : v.text.length ≤ s.b.buf.length)
    (hpos : 0 < s.jidx ∨ ws ≠ [] ∨ s.b.nBytes < v.text.length) :
    (∀ x, v.Gives .value .value x → ∃ s', s.nextValue fuel = (s', .ok x) ∧ s'.Sync ∧ s'.rest = []) ∧
    (v.Gives .skip .unit () → ∃ s', s.nextSkip fuel = (s', .ok ()) ∧ s'.Sync ∧ s'.rest = []) := by
  unfold enoughFuel at hf
  have hs : Stops v [] := by cases v <;> simp [Stops, EndsNumber]
  exact ⟨fun x hg => (nextWhole_call decodes_value h hc (by omega) (by simpa using hr) hw hg hd hs).2 rfl hl hpos,
    fun hg => (nextWhole_call decodes_skip h hc (by omega) (by simpa using hr) hw hg hd hs).2 rfl hl hpos⟩

/-- **C68, partial** (`next_int`, `next_number`, `next_float`). Full statement: without `hpos`. It is false, see
`C68_last_value_lost`. -/
theorem C68_next_numbers_partial (s : RJ) (fuel : Nat) (h : s.Sync) (hc : s.b.reader.Clean) (hf : enoughFuel s fuel) (ws tok : Bytes)
    (hr : s.rest = ws ++ tok) (hw : Spaces ws) (hn : Number tok) (hl : tok.length ≤ s.b.buf.length)
    (hpos : 0 < s.jidx ∨ ws ≠ [] ∨ s.b.nBytes < tok.length) :
    (IsInt tok → ∃ s', s.nextInt fuel = (s', .ok tok) ∧ s'.Sync ∧ s'.rest = []) ∧
    (ShortInt tok → ∃ s', s.nextNumber fuel = (s', .ok tok) ∧ s'.Sync ∧ s'.rest = []) ∧
    ∃ s', s.nextFloat fuel = (s', .ok tok) ∧ s'.Sync ∧ s'.rest = [] := by
  unfold enoughFuel at hf
  have he : EndsNumber [] := by simp [EndsNumber]
  have hr' : s.rest = ws ++ (tok ++ []) := by simpa using hr
  exact ⟨fun hi => (nextNum_call numbers_int h hc (by omega) hr' hw hn hi he).2 rfl hl hpos,
    fun hi => (nextNum_call numbers_any h hc (by omega) hr' hw hn hi he).2 rfl hl hpos,
    (nextNum_call numbers_tok h hc (by omega) hr' hw hn trivial he).2 rfl hl hpos⟩

/-- **C68, partial** (`known_value`, `known_value_owned`, `known_skip`). Full statement: without `hpos` and `hpos'`. It is false, see
`C68_last_value_lost` and `C67_known_value_fails`. -/
theorem C68_known_partial (s : RJ) (fuel : Nat) (h : s.Sync) (hc : s.b.reader.Clean) (hf : enoughFuel s fuel)
    (v : Val) (pk : Byte) (hr : s.rest = v.text) (hpk : v.text.head? = some pk) (hd : v.nesting ≤ 200)
    (hl : v.text.length ≤ s.b.buf.length)
    (hpos : (∃ tok, v = .atom tok) ∨ 0 < s.jidx) (hpos' : 0 < s.jidx ∨ s.b.nBytes < v.text.length) :
    (∀ x, v.Gives .value .value x → ∃ s', s.knownValue fuel pk = (s', .ok x) ∧ s'.Sync ∧ s'.rest = []) ∧
    (v.Gives .skip .unit () → ∃ s', s.knownSkip fuel pk = (s', .ok ()) ∧ s'.Sync ∧ s'.rest = []) := by
  unfold enoughFuel at hf
  obtain ⟨tl, hpk⟩ := List.head?_eq_some_iff.mp hpk
  have hs : Stops v [] := by cases v <;> simp [Stops, EndsNumber]
  have hp : (∃ tok, v = .atom tok) ∨ 0 < s.jidx ∨ v.text.length ≤ s.b.nBytes := by
    rcases hpos with hp | hp
    · exact .inl hp
    · exact .inr (.inl hp)
  exact ⟨fun x hg => (knownWhole_call decodes_value h hc (by omega) (by simpa using hr) hpk hg hd hs hp).2 rfl hl hpos',
    fun hg => (knownWhole_call decodes_skip h hc (by omega) (by simpa using hr) hpk hg hd hs hp).2 rfl hl hpos'⟩

/-- **C68, partial** (`known_int`, `known_number`, `known_float`). Full statement: without `hpos`. It is false, see
`C68_last_value_lost`. -/
theorem C68_known_numbers_partial (s : RJ) (fuel : Nat) (h : s.Sync) (hc : s.b.reader.Clean) (hf : enoughFuel s fuel) (tok : Bytes)
    (pk : Byte) (hr : s.rest = tok) (hpk : tok.head? = some pk) (hn : Number tok) (hl : tok.length ≤ s.b.buf.length)
    (hpos : 0 < s.jidx ∨ s.b.nBytes < tok.length) :
    (IsInt tok → ∃ s', s.knownInt fuel pk = (s', .ok tok) ∧ s'.Sync ∧ s'.rest = []) ∧
    (ShortInt tok → ∃ s', s.knownNumber fuel pk = (s', .ok tok) ∧ s'.Sync ∧ s'.rest = []) ∧
    ∃ s', s.knownFloat fuel pk = (s', .ok tok) ∧ s'.Sync ∧ s'.rest = [] := by
  unfold enoughFuel at hf
  obtain ⟨tl, hpk⟩ := List.head?_eq_some_iff.mp hpk
  have he : EndsNumber [] := by simp [EndsNumber]
  have hr' : s.rest = tok ++ [] := by simpa using hr
  exact ⟨fun hi => (knownNum_call numbers_int h hc (by omega) hr' hpk hn hi he).2 rfl hl hpos,
    fun hi => (knownNum_call numbers_any h hc (by omega) hr' hpk hn hi he).2 rfl hl hpos,
    (knownNum_call numbers_tok h hc (by omega) hr' hpk hn trivial he).2 rfl hl hpos⟩

/-- The document of the examples is the whole stream. -/
example : ∃ s', (RJ.new (oneByOne exWhole.text) (List.replicate 15 0)).nextValue 60 = (s', .ok exWholeValue) ∧ s'.Sync ∧ s'.rest = [] :=
  (C68_next_partial _ 60 (sync_new _ _) (by decide) (by unfold enoughFuel; decide) [] exWhole (by decide) (by simp [Spaces])
    (by decide) (by decide) (by decide)).1 _ exWhole_gives.1

/-- Behind the bracket of `[[1, {"a": "b"}]`, the end of the stream. -/
example : ∃ s s' : RJ, s.knownValue 60 91 = (s', .ok exWholeValue) ∧ s'.rest = [] :=
  let s : RJ := ((RJ.new (oneByOne (91 :: exWhole.text)) (List.replicate 17 0)).nextArray 60).1
  let ⟨s', h1, _, h2⟩ := (C68_known_partial s 60 ⟨by decide +kernel, by decide +kernel, by decide +kernel⟩ (by decide +kernel)
    (by unfold enoughFuel; decide +kernel) exWhole 91 (by decide +kernel) rfl (by decide) (by decide +kernel)
    (.inr (by decide +kernel)) (by decide +kernel)).1 _ exWhole_gives.1
  ⟨s, s', h1, h2⟩

example : ∃ s', (RJ.new (oneByOne [45, 49, 50]) (List.replicate 3 0)).nextInt 60 = (s', .ok [45, 49, 50]) ∧ s'.Sync ∧ s'.rest = [] :=
  (C68_next_numbers_partial _ 60 (sync_new _ _) (by decide) (by unfold enoughFuel; decide) [] [45, 49, 50] (by decide) (by simp [Spaces])
    exInt.1 (by decide) (by decide)).1 exInt.2.1

example : ∃ s', (RJ.new (oneByOne [45, 49, 50]) (List.replicate 3 0)).knownInt 60 45 = (s', .ok [45, 49, 50]) ∧ s'.Sync ∧ s'.rest = [] :=
  (C68_known_numbers_partial _ 60 (sync_new _ _) (by decide) (by unfold enoughFuel; decide) [45, 49, 50] 45 (by decide) rfl
    exInt.1 (by decide) (by decide)).1 exInt.2.1

/-- **C68, the false part.** On the document `5`, after `peek`, none of the calls returns the value. -/
theorem C68_last_value_lost : ∃ s s1 s2 : RJ, ∃ x, History (.new [.data 53 []] [0, 0, 0, 0]) [.peek] s ∧ s.rest = [53] ∧
    ∀ fuel, 10 ≤ fuel →
      s.nextValue fuel = (s1, .err ⟨.json .eofWhileParsingValue, x⟩) ∧ s.nextSkip fuel = (s1, .err ⟨.json .eofWhileParsingValue, x⟩) ∧
      s.nextInt fuel = (s1, .err ⟨.json .eofWhileParsingValue, x⟩) ∧ s.nextNumber fuel = (s1, .err ⟨.json .eofWhileParsingValue, x⟩) ∧
      s.nextFloat fuel = (s1, .err ⟨.json .eofWhileParsingValue, x⟩) ∧
      s.knownValue fuel 53 = (s2, .err ⟨.json .eofWhileParsingValue, x⟩) ∧ s.knownSkip fuel 53 = (s2, .err ⟨.json .eofWhileParsingValue, x⟩) ∧
      s.knownInt fuel 53 = (s2, .err ⟨.json .eofWhileParsingValue, x⟩) ∧
      s.knownNumber fuel 53 = (s2, .err ⟨.json .eofWhileParsingValue, x⟩) ∧
      s.knownFloat fuel 53 = (s2, .err ⟨.json .eofWhileParsingValue, x⟩) := by
  refine ⟨((RJ.new [.data 53 []] [0, 0, 0, 0]).peek 20).1, ?a, ?b, ?c, ?hist, by decide, ?run⟩
  case run =>
    intro fuel hf
    obtain ⟨fuel, rfl⟩ : ∃ m, fuel = m + 10 := ⟨fuel - 10, by omega⟩
    refine ⟨?_, ?_, ?_, ?_, ?_, ?_, ?_, ?_, ?_, ?_⟩
    all_goals exact rfl
  case hist =>
    exact .cons (fuel := 20) (r := .ok ()) (by unfold enoughFuel; decide) rfl (.ok _) (.nil _)

end Verif.Scan
