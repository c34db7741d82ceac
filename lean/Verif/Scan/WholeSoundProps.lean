import Verif.Scan.WholeProps
import Verif.Scan.WholeSound

/-!
# Properties of the calls that read or skip a whole value: what a success means (C69)
-/

namespace Verif.Scan

open Verif.RJiter
open Verif.RJiter.Buffer (isAsciiWs)

/-! ## C69 -/

/-- **C69, partial** (`next_value`, `next_value_owned`). Full statement: without `hpos`. It is false, see `C69_next_value_wrong`. An
`Ok(x)` means: behind the whitespace there is a JSON document, its value is `x`, and the position is just behind it. -/
theorem C69_next_value_partial (s : RJ) (fuel : Nat) (h : s.Sync) (hl : 0 < s.b.buf.length) (hf : enoughFuel s fuel)
    (hpos : 0 < s.jidx ∨ s.b.nBytes = 0 ∨ ∀ c, s.rest.head? = some c → c ≠ 91 ∧ c ≠ 123)
    (s' : RJ) (x : JsonValue) (hok : s.nextValue fuel = (s', .ok x)) :
    ∃ (ws : Bytes) (v : Val) (t : Bytes), s.rest = ws ++ (v.text ++ t) ∧ Blank ws ∧ v.Gives .value .value x ∧ v.nesting ≤ 200 ∧
      s.Moved s' (ws.length + v.text.length) ∧
      ((∀ c b y, t = c :: b → ¬ Number (v.text ++ c :: y)) ∨ t = [] ∨ v.text.length = s.b.buf.length) := by
  unfold enoughFuel at hf
  exact nextWhole_value says_value Jiter.Decoders.value_sound knownStr_still numberAny_still h hl (by omega) hpos hok

/-- **C69, partial** (`next_skip`). Full statement: without `hpos`. It is false, see `C69_next_skip_wrong`. An `Ok` means: behind the
whitespace there is a document, and exactly that has been skipped. The document is JSON, but its strings may contain any bytes from
32 on, and what follows a `\u` is not looked at. -/
theorem C69_next_skip_partial (s : RJ) (fuel : Nat) (h : s.Sync) (hl : 0 < s.b.buf.length) (hf : enoughFuel s fuel)
    (hpos : 0 < s.jidx ∨ s.b.nBytes = 0 ∨ ∀ c, s.rest.head? = some c → c ≠ 91 ∧ c ≠ 123)
    (s' : RJ) (hok : s.nextSkip fuel = (s', .ok ())) :
    ∃ (ws : Bytes) (v : Val) (t : Bytes), s.rest = ws ++ (v.text ++ t) ∧ Blank ws ∧ v.Gives .rough .unit () ∧ v.nesting ≤ 200 ∧
      s.Moved s' (ws.length + v.text.length) ∧
      ((∀ c b y, t = c :: b → ¬ Number (v.text ++ c :: y)) ∨ t = [] ∨ v.text.length = s.b.buf.length) := by
  unfold enoughFuel at hf
  exact nextWhole_value says_skip Jiter.Decoders.skip_sound knownBytes_still numberTok_still h hl (by omega) hpos hok

/-- **C69, partial** (`known_value`, `known_value_owned`). Full statement: without `hpos`. It is false, see `C67_known_value_wrong`. -/
theorem C69_known_value_partial (s : RJ) (fuel : Nat) (h : s.Sync) (hl : 0 < s.b.buf.length) (hf : enoughFuel s fuel)
    (pk : Byte) (hpk : s.rest.head? = some pk) (hws : ¬ Space pk ∧ pk ≠ 12)
    (hpos : 0 < s.jidx ∨ s.b.nBytes = 0 ∨ pk ≠ 91 ∧ pk ≠ 123)
    (s' : RJ) (x : JsonValue) (hok : s.knownValue fuel pk = (s', .ok x)) :
    ∃ (v : Val) (t : Bytes), s.rest = v.text ++ t ∧ v.Gives .value .value x ∧ v.nesting ≤ 200 ∧ s.Moved s' v.text.length ∧
      ((∀ c b y, t = c :: b → ¬ Number (v.text ++ c :: y)) ∨ t = [] ∨ v.text.length = s.b.buf.length) := by
  unfold enoughFuel at hf
  refine knownWhole_value says_value Jiter.Decoders.value_sound knownStr_still numberAny_still h hl (by omega) hpk ?_ hpos hok
  cases ha : isAsciiWs pk with
  | false => rfl
  | true =>
    rcases blank_of_ascii (l := [pk]) (by simpa using ha) pk (by simp) with h1 | h1
    · exact absurd h1 hws.1
    · exact absurd h1 hws.2

/-- **C69, partial** (`known_skip`). Full statement: without `hpos`. It is false, see `C67_known_skip_wrong`. -/
theorem C69_known_skip_partial (s : RJ) (fuel : Nat) (h : s.Sync) (hl : 0 < s.b.buf.length) (hf : enoughFuel s fuel)
    (pk : Byte) (hpk : s.rest.head? = some pk) (hws : ¬ Space pk ∧ pk ≠ 12)
    (hpos : 0 < s.jidx ∨ s.b.nBytes = 0 ∨ pk ≠ 91 ∧ pk ≠ 123)
    (s' : RJ) (hok : s.knownSkip fuel pk = (s', .ok ())) :
    ∃ (v : Val) (t : Bytes), s.rest = v.text ++ t ∧ v.Gives .rough .unit () ∧ v.nesting ≤ 200 ∧ s.Moved s' v.text.length ∧
      ((∀ c b y, t = c :: b → ¬ Number (v.text ++ c :: y)) ∨ t = [] ∨ v.text.length = s.b.buf.length) := by
  unfold enoughFuel at hf
  refine knownWhole_value says_skip Jiter.Decoders.skip_sound knownBytes_still numberTok_still h hl (by omega) hpk ?_ hpos hok
  cases ha : isAsciiWs pk with
  | false => rfl
  | true =>
    rcases blank_of_ascii (l := [pk]) (by simpa using ha) pk (by simp) with h1 | h1
    · exact absurd h1 hws.1
    · exact absurd h1 hws.2

/-- What the success of a call for a number means: the number is there, and it is not the beginning of a longer one, unless the
stream ends there, or the buffer is full. -/
def ReadsNumber (s s' : RJ) (tok : Bytes) (P : Bytes → Prop) : Prop :=
  ∃ ws t, s.rest = ws ++ (tok ++ t) ∧ Blank ws ∧ Number tok ∧ P tok ∧ s.Moved s' (ws.length + tok.length) ∧
    ((∀ c b y, t = c :: b → ¬ Number (tok ++ c :: y)) ∨ t = [] ∨ tok.length = s.b.buf.length)

/-- **C69** (`next_int`, `next_number`, `next_float`). -/
theorem C69_next_numbers (s : RJ) (fuel : Nat) (h : s.Sync) (hl : 0 < s.b.buf.length) (hf : enoughFuel s fuel) (s' : RJ) (tok : Bytes) :
    (s.nextInt fuel = (s', .ok tok) → ReadsNumber s s' tok IsInt) ∧
    (s.nextNumber fuel = (s', .ok tok) → ReadsNumber s s' tok ShortInt) ∧
    (s.nextFloat fuel = (s', .ok tok) → ReadsNumber s s' tok fun _ => True) := by
  unfold enoughFuel at hf
  exact ⟨nextNum_value (fun _ _ _ h => numberInt_int h) Jiter.numberInt_jsound numberInt_still h hl (by omega),
    nextNum_value (fun _ _ _ h => numberAny_short h) Jiter.numberAny_jsound numberAny_still h hl (by omega),
    nextNum_value (fun _ _ _ h => ⟨h, trivial⟩) numberTok_jsound numberTok_still h hl (by omega)⟩

/-- **C69** (`known_int`, `known_number`, `known_float`), whatever the peek is. -/
theorem C69_known_numbers (s : RJ) (fuel : Nat) (h : s.Sync) (hl : 0 < s.b.buf.length) (hf : enoughFuel s fuel) (pk : Byte) (s' : RJ)
    (tok : Bytes) :
    (s.knownInt fuel pk = (s', .ok tok) → ReadsNumber s s' tok IsInt) ∧
    (s.knownNumber fuel pk = (s', .ok tok) → ReadsNumber s s' tok ShortInt) ∧
    (s.knownFloat fuel pk = (s', .ok tok) → ReadsNumber s s' tok fun _ => True) := by
  unfold enoughFuel at hf
  exact ⟨knownNum_value (fun _ _ _ h => numberInt_int h) Jiter.numberInt_jsound numberInt_still h hl (by omega),
    knownNum_value (fun _ _ _ h => numberAny_short h) Jiter.numberAny_jsound numberAny_still h hl (by omega),
    knownNum_value (fun _ _ _ h => ⟨h, trivial⟩) numberTok_jsound numberTok_still h hl (by omega)⟩

/-- The calls do return values (see the examples of C67), also from a fresh `RJiter`. -/
example : ∃ s', exWholeSt.nextValue 60 = (s', .ok exWholeValue) ∧ exWholeSt.b.nBytes = 0 ∧ ∃ (ws : Bytes) (v : Val) (t : Bytes),
    exWholeSt.rest = ws ++ (v.text ++ t) ∧ v.Gives .value .value exWholeValue := by
  have hf : enoughFuel exWholeSt 60 := by unfold enoughFuel; decide
  obtain ⟨s', h1, _⟩ := C67_next_value exWholeSt 60 (sync_new _ _) (by decide) hf [32] [44] exWhole _ (by decide)
    (by simp [Spaces, Space]) exWhole_gives.1 (by decide) trivial (by simp) (by decide)
  obtain ⟨ws, v, t, h2, _, h3, _⟩ := C69_next_value_partial exWholeSt 60 (sync_new _ _) (by decide) hf (.inr (.inl rfl)) s' _ h1
  exact ⟨s', h1, rfl, ws, v, t, h2, h3⟩

example : ((RJ.new (oneByOne [32, 45, 49, 50, 44]) (List.replicate 4 0)).nextInt 60).2 = .ok [45, 49, 50] ∧
    ((RJ.new (oneByOne [45, 49, 50, 44]) (List.replicate 4 0)).knownNumber 60 45).2 = .ok [45, 49, 50] ∧
    (exWholeSt1.knownSkip 60 91).2 = .ok () ∧ 0 < exWholeSt1.jidx := by decide +kernel

/-- `next_skip` takes strings that are not JSON: `"\uXY"`. -/
example : ((RJ.new [.data 34 [92, 117, 88, 89, 34, 32]] (List.replicate 8 0)).nextSkip 60).2 = .ok () := by decide +kernel

/-- **C69, the false part** (`next_value`). The stream is `[1 "x"]`, all of it in the buffer. `peek` sees the bracket; then `next_value`
returns the string `x`: the first attempt fails behind the `1`, and the second one starts there. -/
theorem C69_next_value_wrong : ∃ s s' : RJ,
    History (.new [.data 91 [49, 32, 34, 120, 34, 93]] (List.replicate 16 0)) [.peek] s ∧
    s.rest = [91, 49, 32, 34, 120, 34, 93] ∧
    ∀ fuel, 10 ≤ fuel → s.nextValue fuel = (s', .ok (.str [120])) ∧ s'.rest = [93] := by
  refine ⟨((RJ.new [.data 91 [49, 32, 34, 120, 34, 93]] (List.replicate 16 0)).peek 20).1, ?a, ?hist, by decide +kernel, ?run⟩
  case run =>
    intro fuel hf
    obtain ⟨fuel, rfl⟩ : ∃ m, fuel = m + 10 := ⟨fuel - 10, by omega⟩
    constructor
    · exact rfl
    · exact rfl
  case hist => exact .cons (fuel := 20) (r := .ok ()) (by unfold enoughFuel; decide) rfl (.ok _) (.nil _)

/-- **C69, the false part** (`next_skip`), on the same stream: what has been skipped is `[1 "x"`. -/
theorem C69_next_skip_wrong : ∃ s s' : RJ,
    History (.new [.data 91 [49, 32, 34, 120, 34, 93]] (List.replicate 16 0)) [.peek] s ∧
    s.rest = [91, 49, 32, 34, 120, 34, 93] ∧
    ∀ fuel, 10 ≤ fuel → s.nextSkip fuel = (s', .ok ()) ∧ s'.rest = [93] := by
  refine ⟨((RJ.new [.data 91 [49, 32, 34, 120, 34, 93]] (List.replicate 16 0)).peek 20).1, ?a, ?hist, by decide +kernel, ?run⟩
  case run =>
    intro fuel hf
    obtain ⟨fuel, rfl⟩ : ∃ m, fuel = m + 10 := ⟨fuel - 10, by omega⟩
    constructor
    · exact rfl
    · exact rfl
  case hist => exact .cons (fuel := 20) (r := .ok ()) (by unfold enoughFuel; decide) rfl (.ok _) (.nil _)

end Verif.Scan
