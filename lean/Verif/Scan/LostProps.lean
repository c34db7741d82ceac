import Verif.RJiter.Lost
import Verif.Scan.WholeProps
import Verif.RJiter.WholeBound

/-!
# Properties C19 and C68: exactly when the last value of the stream is lost

The conditions of `C19_last_number_partial` and `C68_next_partial` cannot be weakened: in all other states the calls fail with
`EofWhileParsingValue`.
-/

namespace Verif.Scan

open Verif.RJiter RJ

/-- The complete value is the valid part of the buffer, and the jiter is at its start. -/
def AllThere (s : RJ) (ws text : Bytes) : Prop := s.jidx = 0 ∧ ws = [] ∧ text.length ≤ s.b.nBytes

theorem allThere_iff (s : RJ) (ws text : Bytes) : AllThere s ws text ↔ ¬ (0 < s.jidx ∨ ws ≠ [] ∨ s.b.nBytes < text.length) := by
  unfold AllThere
  constructor
  · rintro ⟨h1, h2, h3⟩ (h | h | h)
    · omega
    · exact h h2
    · omega
  · intro h
    simp only [not_or, Decidable.not_not] at h
    exact ⟨by omega, h.2.1, by omega⟩

/-! ## `next_number_bytes` -/

/-- **C19, the false part.** In every state in which the complete number is at the start of the buffer, `next_number_bytes` fails. -/
theorem C19_last_number_fails (s : RJ) (fuel : Nat) (h : s.Sync) (hc : s.b.reader.Clean) (hf : enoughFuel s fuel) (num : Bytes)
    (hnum : Number num) (hr : s.rest = num) (hat : AllThere s [] num) :
    ∃ s' i, s.nextNumberBytes fuel = (s', .err ⟨.json .eofWhileParsingValue, i⟩) := by
  unfold enoughFuel at hf
  obtain ⟨f, rfl⟩ : ∃ f, fuel = f + 1 := ⟨fuel - 1, by omega⟩
  obtain ⟨c, r, rfl, hw⟩ := number_ascii hnum
  exact loop_lost (f := Jiter.nextNumberBytes) (m := 0) (e := ⟨.json .eofWhileParsingValue, 0⟩) f h hc hr hw hat.1 hat.2.2
    (Jiter.nextNumber_full hnum) rfl rfl

/-- **C19**: exactly when the last number of the stream is returned. -/
theorem C19_last_number_exact (s : RJ) (fuel : Nat) (h : s.Sync) (hc : s.b.reader.Clean) (hf : enoughFuel s fuel)
    (ws num : Bytes) (hnum : Number num) (hr : s.rest = ws ++ num) (hw : Spaces ws) (hl : num.length ≤ s.b.buf.length) :
    (∃ s', s.nextNumberBytes fuel = (s', .ok num) ∧ s'.rest = []) ↔ ¬ AllThere s ws num := by
  rw [allThere_iff, Decidable.not_not]
  constructor
  · rintro ⟨s', e, _⟩
    refine Decidable.byContradiction fun hn => ?_
    rw [← allThere_iff] at hn
    have h2 := hn.2.1
    subst h2
    obtain ⟨s2, i, e2⟩ := C19_last_number_fails s fuel h hc hf num hnum (by simpa using hr) hn
    rw [e] at e2
    simp at e2
  · intro hp
    exact C19_last_number_partial s fuel h hc hf ws num hnum hr hw hl hp

/-! ## `next_value`, `next_skip` -/

theorem nextWhole_lost {α : Type} {R : Reading} {B : Build α} {D : Jiter.Decoders} (hD : Decodes D R) (s : RJ) (fuel : Nat) (h : s.Sync)
    (hc : s.b.reader.Clean) (v : Val) (x : α) (hg : v.Gives R B x) (hd : v.nesting ≤ 200) (hr : s.rest = v.text) (hat : AllThere s [] v.text) :
    ∃ s' i, s.loopUntilSuccess (fuel + 1) (Jiter.nextWhole D B) none true = (s', .err ⟨.json .eofWhileParsingValue, i⟩) := by
  have hs : Stops v [] := by cases v <;> simp [Stops, EndsNumber]
  have h0 := next_fits (B := B) hD (t := []) (fuel := v.cost + (2 * v.text.length + 1)) (depth := Jiter.recursionLimit) (ws := []) (by simp [Spaces]) hg
    (by omega) hd hs
  simp only [List.nil_append, List.length_nil, Nat.zero_add, List.append_nil] at h0
  obtain ⟨r0, _⟩ := nextWhole_reads (by omega) h0
  obtain ⟨c, r, e, hw⟩ := Val.Gives.first hg
  have hall := r0.enough v.text.length (Nat.le_refl _)
  rw [List.take_length] at hall
  rw [e] at hall hr hat
  exact loop_lost (m := 0) (e := ⟨.json .eofWhileParsingValue, 0⟩) fuel h hc hr hw hat.1 hat.2.2 hall rfl rfl

/-- **C68, the false part.** In every state in which the complete value is at the start of the buffer, `next_value` and `next_skip` fail. -/
theorem C68_next_fails (s : RJ) (fuel : Nat) (h : s.Sync) (hc : s.b.reader.Clean) (hf : enoughFuel s fuel) (v : Val)
    (hr : s.rest = v.text) (hd : v.nesting ≤ 200) (hat : AllThere s [] v.text) :
    (∀ x, v.Gives .value .value x → ∃ s' i, s.nextValue fuel = (s', .err ⟨.json .eofWhileParsingValue, i⟩)) ∧
    (v.Gives .skip .unit () → ∃ s' i, s.nextSkip fuel = (s', .err ⟨.json .eofWhileParsingValue, i⟩)) := by
  unfold enoughFuel at hf
  obtain ⟨f, rfl⟩ : ∃ f, fuel = f + 1 := ⟨fuel - 1, by omega⟩
  exact ⟨fun x hg => nextWhole_lost decodes_value s f h hc v x hg hd hr hat, fun hg => nextWhole_lost decodes_skip s f h hc v () hg hd hr hat⟩

/-- **C68** (`next_value`, `next_value_owned`, `next_skip`): exactly when the last value of the stream is returned. -/
theorem C68_next_exact (s : RJ) (fuel : Nat) (h : s.Sync) (hc : s.b.reader.Clean) (hf : enoughFuel s fuel) (ws : Bytes)
    (v : Val) (hr : s.rest = ws ++ v.text) (hw : Spaces ws) (hd : v.nesting ≤ 200) (hl : v.text.length ≤ s.b.buf.length) :
    (∀ x, v.Gives .value .value x → ((∃ s', s.nextValue fuel = (s', .ok x) ∧ s'.rest = []) ↔ ¬ AllThere s ws v.text)) ∧
    (v.Gives .skip .unit () → ((∃ s', s.nextSkip fuel = (s', .ok ()) ∧ s'.rest = []) ↔ ¬ AllThere s ws v.text)) := by
  constructor
  · intro x hg
    constructor
    · rintro ⟨s', e, _⟩ hat
      have h2 := hat.2.1
      subst h2
      obtain ⟨s2, i, e2⟩ := (C68_next_fails s fuel h hc hf v (by simpa using hr) hd hat).1 x hg
      rw [e] at e2
      simp at e2
    · intro hn
      rw [allThere_iff, Decidable.not_not] at hn
      obtain ⟨s', e, _, h2⟩ := (C68_next_partial s fuel h hc hf ws v hr hw hd hl hn).1 x hg
      exact ⟨s', e, h2⟩
  · intro hg
    constructor
    · rintro ⟨s', e, _⟩ hat
      have h2 := hat.2.1
      subst h2
      obtain ⟨s2, i, e2⟩ := (C68_next_fails s fuel h hc hf v (by simpa using hr) hd hat).2 hg
      rw [e] at e2
      simp at e2
    · intro hn
      rw [allThere_iff, Decidable.not_not] at hn
      obtain ⟨s', e, _, h2⟩ := (C68_next_partial s fuel h hc hf ws v hr hw hd hl hn).2 hg
      exact ⟨s', e, h2⟩

/-! ## `next_int`, `next_number`, `next_float` -/

theorem nextNum_lost {num : JFn Bytes} {P : Bytes → Prop} (hN : Numbers num P) (s : RJ) (fuel : Nat) (h : s.Sync) (hc : s.b.reader.Clean)
    (tok : Bytes) (hn : Number tok) (hp : P tok) (hr : s.rest = tok) (hat : AllThere s [] tok) :
    ∃ s' i, s.loopUntilSuccess (fuel + 1) (Jiter.nextNum num) none true = (s', .err ⟨.json .eofWhileParsingValue, i⟩) := by
  obtain ⟨r0, _⟩ := nextNum_reads hN (ws := []) (t := []) (by simp [Spaces]) hn hp (by simp [EndsNumber])
  simp only [List.nil_append, List.length_nil, Nat.zero_add, List.append_nil] at r0
  have hall := r0.enough tok.length (Nat.le_refl _)
  rw [List.take_length] at hall
  obtain ⟨c, r, rfl, hw⟩ := number_ascii hn
  exact loop_lost (m := 0) (e := ⟨.json .eofWhileParsingValue, 0⟩) fuel h hc hr hw hat.1 hat.2.2 hall rfl rfl

/-- **C68, the false part** (`next_int`, `next_number`, `next_float`). -/
theorem C68_next_numbers_fail (s : RJ) (fuel : Nat) (h : s.Sync) (hc : s.b.reader.Clean) (hf : enoughFuel s fuel) (tok : Bytes)
    (hn : Number tok) (hr : s.rest = tok) (hat : AllThere s [] tok) :
    (IsInt tok → ∃ s' i, s.nextInt fuel = (s', .err ⟨.json .eofWhileParsingValue, i⟩)) ∧
    (ShortInt tok → ∃ s' i, s.nextNumber fuel = (s', .err ⟨.json .eofWhileParsingValue, i⟩)) ∧
    ∃ s' i, s.nextFloat fuel = (s', .err ⟨.json .eofWhileParsingValue, i⟩) := by
  unfold enoughFuel at hf
  obtain ⟨f, rfl⟩ : ∃ f, fuel = f + 1 := ⟨fuel - 1, by omega⟩
  exact ⟨fun hi => nextNum_lost numbers_int s f h hc tok hn hi hr hat, fun hi => nextNum_lost numbers_any s f h hc tok hn hi hr hat,
    nextNum_lost numbers_tok s f h hc tok hn trivial hr hat⟩

/-! ## The `known_` calls -/

theorem knownWhole_lost {α : Type} {R : Reading} {B : Build α} {D : Jiter.Decoders} (hD : Decodes D R) (hS : D.Sound) (s : RJ) (fuel : Nat) (h : s.Sync)
    (hc : s.b.reader.Clean) (v : Val) (x : α) (pk : Byte) (hg : v.Gives R B x) (hd : v.nesting ≤ 200) (hr : s.rest = v.text)
    (hpk : v.text.head? = some pk) (hat : AllThere s [] v.text) :
    ∃ s' e, s.loopUntilSuccess (fuel + 1) (Jiter.knownWhole D B pk) none true = (s', .err e) := by
  have hs : Stops v [] := by cases v <;> simp [Stops, EndsNumber]
  obtain ⟨pk', tl', e1, _, _, h4⟩ := Val.fits (B := B) hD v x (v.cost + (2 * v.text.length + 1)) Jiter.recursionLimit [] hg (by omega) hd hs
  have : pk' = pk := by rw [e1] at hpk; simpa using hpk
  subst this
  rw [List.append_nil] at h4
  have r0 := knownWhole_reads (by omega) h4
  obtain ⟨c, r, e, hw⟩ := Val.Gives.first hg
  have hall := r0.enough v.text.length (Nat.le_refl _)
  rw [List.take_length] at hall
  have hpos : 0 < v.text.length := by rw [e]; simp
  have hnil := r0.short 0 hpos
  rw [List.take_zero] at hnil
  rw [e] at hall hr hat
  rcases hx : Jiter.knownWhole D B pk' [] with ⟨m, y⟩
  rw [hx] at hnil
  cases y with
  | error er =>
    obtain ⟨s', i, e⟩ := loop_lost fuel h hc hr hw hat.1 hat.2.2 hall hx hnil
    exact ⟨s', _, e⟩
  | ok w => exact absurd rfl ((Jiter.knownWhole_jsound hS pk').bound _ _ _ hx).2

theorem knownNum_lost {num : JFn Bytes} {P : Bytes → Prop} (hN : Numbers num P) (hS : JSound num none) (s : RJ) (fuel : Nat) (h : s.Sync)
    (hc : s.b.reader.Clean) (tok : Bytes) (pk : Byte) (hn : Number tok) (hp : P tok) (hr : s.rest = tok) (hpk : tok.head? = some pk)
    (hat : AllThere s [] tok) : ∃ s' e, s.loopUntilSuccess (fuel + 1) (Jiter.knownNum num pk) none true = (s', .err e) := by
  obtain ⟨tl, hpk⟩ := List.head?_eq_some_iff.mp hpk
  obtain ⟨r0, _⟩ := knownNum_reads hN (t := []) hpk hn hp (by simp [EndsNumber])
  rw [List.append_nil] at r0
  have hall := r0.enough tok.length (Nat.le_refl _)
  rw [List.take_length] at hall
  obtain ⟨c, r, rfl, hw⟩ := number_ascii hn
  have hnil := r0.short 0 (by simp)
  rw [List.take_zero] at hnil
  rcases hx : Jiter.knownNum num pk [] with ⟨m, y⟩
  rw [hx] at hnil
  cases y with
  | error er =>
    obtain ⟨s', i, e⟩ := loop_lost fuel h hc hr hw hat.1 hat.2.2 hall hx hnil
    exact ⟨s', _, e⟩
  | ok w => exact absurd rfl ((Jiter.knownNum_jsound hS pk).bound _ _ _ hx).2

/-- **C68, the false part** (`known_value`, `known_value_owned`, `known_skip`). -/
theorem C68_known_fails (s : RJ) (fuel : Nat) (h : s.Sync) (hc : s.b.reader.Clean) (hf : enoughFuel s fuel) (v : Val) (pk : Byte)
    (hr : s.rest = v.text) (hpk : v.text.head? = some pk) (hd : v.nesting ≤ 200) (hat : AllThere s [] v.text) :
    (∀ x, v.Gives .value .value x → ∃ s' e, s.knownValue fuel pk = (s', .err e)) ∧
    (v.Gives .skip .unit () → ∃ s' e, s.knownSkip fuel pk = (s', .err e)) := by
  unfold enoughFuel at hf
  obtain ⟨f, rfl⟩ : ∃ f, fuel = f + 1 := ⟨fuel - 1, by omega⟩
  exact ⟨fun x hg => knownWhole_lost decodes_value Jiter.Decoders.value_sound s f h hc v x pk hg hd hr hpk hat,
    fun hg => knownWhole_lost decodes_skip Jiter.Decoders.skip_sound s f h hc v () pk hg hd hr hpk hat⟩

/-- **C68, the false part** (`known_int`, `known_number`, `known_float`). -/
theorem C68_known_numbers_fail (s : RJ) (fuel : Nat) (h : s.Sync) (hc : s.b.reader.Clean) (hf : enoughFuel s fuel) (tok : Bytes) (pk : Byte)
    (hn : Number tok) (hr : s.rest = tok) (hpk : tok.head? = some pk) (hat : AllThere s [] tok) :
    (IsInt tok → ∃ s' e, s.knownInt fuel pk = (s', .err e)) ∧
    (ShortInt tok → ∃ s' e, s.knownNumber fuel pk = (s', .err e)) ∧
    ∃ s' e, s.knownFloat fuel pk = (s', .err e) := by
  unfold enoughFuel at hf
  obtain ⟨f, rfl⟩ : ∃ f, fuel = f + 1 := ⟨fuel - 1, by omega⟩
  exact ⟨fun hi => knownNum_lost numbers_int Jiter.numberInt_jsound s f h hc tok pk hn hi hr hpk hat,
    fun hi => knownNum_lost numbers_any Jiter.numberAny_jsound s f h hc tok pk hn hi hr hpk hat,
    knownNum_lost numbers_tok numberTok_jsound s f h hc tok pk hn trivial hr hpk hat⟩

/-! ## Examples -/

/-- `-12`, after `peek`: the number is there, and all hypotheses are met. -/
example : ∃ s : RJ, History (.new [.data 45 [49, 50]] [0, 0, 0, 0]) [.peek] s ∧ s.Sync ∧ s.b.reader.Clean ∧ s.rest = [45, 49, 50] ∧
    AllThere s [] [45, 49, 50] ∧ Number [45, 49, 50] ∧ IsInt [45, 49, 50] ∧ ShortInt [45, 49, 50] ∧ enoughFuel s 20 :=
  ⟨((RJ.new [.data 45 [49, 50]] [0, 0, 0, 0]).peek 20).1,
    .cons (fuel := 20) (r := .ok ()) (by unfold enoughFuel; decide) rfl (.ok _) (.nil _), ⟨by decide, by decide, by decide⟩, by decide, by decide,
    ⟨by decide, rfl, by decide⟩, exInt.1, exInt.2.1, exInt.2.2, by unfold enoughFuel; decide⟩

/-- The array of the examples, after `peek`. -/
example : ∃ s : RJ, s.Sync ∧ s.rest = exWhole.text ∧ AllThere s [] exWhole.text ∧ exWhole.Gives .value .value exWholeValue ∧
    exWhole.nesting ≤ 200 ∧ ∃ s' i, s.nextValue 60 = (s', .err ⟨.json .eofWhileParsingValue, i⟩) :=
  let s : RJ := ((RJ.new [.data 91 exWhole.text.tail] (List.replicate 17 0)).peek 60).1
  have hs : s.Sync := ⟨by decide +kernel, by decide +kernel, by decide +kernel⟩
  have ha : AllThere s [] exWhole.text := ⟨by decide +kernel, rfl, by decide +kernel⟩
  ⟨s, hs, by decide +kernel, ha, exWhole_gives.1, by decide, (C68_next_fails s 60 hs (by decide +kernel)
    (by unfold enoughFuel; decide +kernel) exWhole (by decide +kernel) (by decide) ha).1 _ exWhole_gives.1⟩

end Verif.Scan
