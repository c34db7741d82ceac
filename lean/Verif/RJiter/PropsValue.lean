import Verif.RJiter.PropsLong
import Verif.RJiter.PropsCalls
import Verif.RJiter.Value

/-!
# Properties C41 and C44 of `rjiter`: an `Ok` can be trusted

Unlike C17 and C18 these start from the result of the call and conclude what the stream holds.
-/

namespace Verif.RJiter

open Buffer RJ Jiter

/-- What the calls skip in front of a token: JSON whitespace, and form feeds (see `C16_form_feed`). -/
def Blank (l : Bytes) : Prop := ∀ c ∈ l, Space c ∨ c = 12

theorem blank_of_ascii {l : Bytes} (h : ∀ c ∈ l, isAsciiWs c = true) : Blank l := by
  intro c hc
  have := h c hc
  simp only [isAsciiWs, Bool.or_eq_true, beq_iff_eq] at this
  simp only [Space]
  rcases this with (((h | h) | h) | h) | h
  · exact .inl (.inl h)
  · exact .inl (.inr (.inl h))
  · exact .inl (.inr (.inr (.inl h)))
  · exact .inr h
  · exact .inl (.inr (.inr (.inr h)))

theorem Blank.append {a b : Bytes} (ha : Blank a) (hb : Blank b) : Blank (a ++ b) := by
  intro c hc
  rcases List.mem_append.mp hc with h | h
  · exact ha c h
  · exact hb c h

theorem blank_ws {l : Bytes} (h : Ws l) : Blank l := fun c hc => .inl ((ws_iff l).mp h c hc)

/-- The calls that peek: what precedes the token is blank, and the function behind the token accepted a prefix. -/
theorem next_value {α : Type} {f : JFn α} {sel : Byte → Option (JFn α)} {eager : Bool} (hn : Next f sel)
    (hs : ∀ c g, sel c = some g → JSound g none) (hst : ∀ c g, sel c = some g → Still g)
    {s : RJ} {fuel : Nat} (h : s.Sync) (hl : 0 < s.b.buf.length) (hf : enoughFuel s fuel)
    {s' : RJ} {v : α} (hok : s.loopUntilSuccess fuel f none eager = (s', .ok v)) :
    ∃ ws c t g d m, s.rest = ws ++ c :: t ∧ Blank ws ∧ sel c = some g ∧ d <+: c :: t ∧ g d = (m, .ok v) ∧
      s.Moved s' (ws.length + m) ∧ (eager = true → m < d.length ∨ d = c :: t ∨ d.length = s.b.buf.length) := by
  unfold enoughFuel at hf
  obtain ⟨ws, r, k, n, h1, h2, h3, ha, hm⟩ := plain_value (Next.jsound hn hs) (Next.stillWs hn hst) s fuel h hl (by omega) hok
  obtain ⟨ws2, c, t, g, m, e1, e2, e3, e4, e5, e6⟩ := hn.ok ha.ok
  have hr : r = ws2 ++ c :: (t ++ r.drop k) := by
    conv => lhs; rw [← List.take_append_drop k r, e1, List.append_assoc, List.cons_append]
  have hk : (r.take k).length = k := by rw [List.length_take]; have := ha.le; omega
  rw [e1, List.length_append] at hk
  refine ⟨ws ++ ws2, c, t ++ r.drop k, g, c :: t, m, ?_, (blank_of_ascii h2).append (blank_ws e2), e4, ?_, e5, ?_, ?_⟩
  · rw [h1]; conv => lhs; rw [hr]
    rw [List.append_assoc]
  · exact ⟨r.drop k, by simp⟩
  · rw [List.length_append, Nat.add_assoc, ← e6]; exact hm
  · intro he
    rcases h3 with ⟨h3, _⟩ | h3
    · left; have := h3 he; omega
    · rcases ha.margin he with h4 | h4 | h4
      · left; omega
      · right; left
        rw [List.drop_eq_nil_of_le (by omega), List.append_nil]
      · right; right
        have : ws2 = [] := by
          cases hw : ws2 with
          | nil => rfl
          | cons x l =>
            exfalso
            obtain ⟨_, _, _, g3⟩ := norm_none_split s.rest
            have hx := g3 x (by rw [← h3, hr, hw]; rfl)
            have := isAscii_of_isWs (e2 x (by rw [hw]; simp))
            rw [hx] at this; exact absurd this (by decide)
        rw [this] at hk
        simpa [h4] using hk

/-- The calls that do not peek, on a token. -/
theorem known_value {α : Type} {f : JFn α} (hs : JSound f none) (hst : Still f)
    {s : RJ} {fuel : Nat} (h : s.Sync) (hf : enoughFuel s fuel) (hl : 0 < s.b.buf.length) {c : Byte} {t : Bytes} (hr : s.rest = c :: t)
    (hc : ¬ Space c) (hff : c ≠ 12) {s' : RJ} {v : α} (hok : s.loopUntilSuccess fuel f none false = (s', .ok v)) :
    ∃ d n, d <+: s.rest ∧ f d = (n, .ok v) ∧ s.Moved s' n := by
  unfold enoughFuel at hf
  obtain ⟨ws, r, k, n, h1, h2, h3, ha, hm⟩ :=
    plain_value hs (fun _ _ _ _ _ h => hst _ _ _ h) s fuel h hl (by omega) hok
  have hw : ws = [] := by
    cases hw : ws with
    | nil => rfl
    | cons x l =>
      exfalso
      have := h2 x (by rw [hw]; simp)
      rw [hw, hr, List.cons_append] at h1
      injection h1 with h1 _
      subst h1
      rw [isAsciiWs_false hc hff] at this
      exact absurd this (by decide)
  subst hw
  rw [List.nil_append] at h1
  subst h1
  exact ⟨s.rest.take k, n, List.take_prefix k _, ha.ok, by simpa using hm⟩

theorem known_complete {α : Type} {f : JFn α} (hs : JSound f none) (hst : Still f) (hx : Ext f)
    {s : RJ} {fuel : Nat} (h : s.Sync) (hf : enoughFuel s fuel) (hl : 0 < s.b.buf.length) {c : Byte} {t : Bytes} (hr : s.rest = c :: t)
    (hc : ¬ Space c) (hff : c ≠ 12) {s' : RJ} {v : α} (hok : s.loopUntilSuccess fuel f none false = (s', .ok v)) :
    ∃ n, f s.rest = (n, .ok v) ∧ s.Moved s' n := by
  obtain ⟨d, n, ⟨x, hd⟩, h1, h2⟩ := known_value hs hst h hf hl hr hc hff hok
  refine ⟨n, ?_, h2⟩
  rw [← hd]; exact hx _ _ _ _ h1

/-- The first byte behind the whitespace is not a form feed. -/
def NoFeed (r : Bytes) : Prop := ∀ ws c t, r = ws ++ c :: t → Spaces ws → c ≠ 12

theorem NoFeed.spaces : ∀ {ws r : Bytes}, NoFeed (ws ++ r) → Blank ws → Spaces ws := by
  intro ws
  induction ws with
  | nil => intro r _ _ c hc; simp at hc
  | cons x ws ih =>
    intro r hn hb
    have hx : Space x := by
      rcases hb x (by simp) with hx | hx
      · exact hx
      · exact absurd hx (hn [] x (ws ++ r) rfl (by intro c hc; simp at hc))
    have hrest : Spaces ws := by
      refine ih (r := r) ?_ (fun c hc => hb c (by simp [hc]))
      intro ws' c t he hw
      refine hn (x :: ws') c t (by rw [List.cons_append, he]; rfl) ?_
      intro y hy
      rcases List.mem_cons.mp hy with rfl | hy
      · exact hx
      · exact hw y hy
    intro y hy
    rcases List.mem_cons.mp hy with rfl | hy
    · exact hx
    · exact hrest y hy

theorem next_complete {α : Type} {f : JFn α} {sel : Byte → Option (JFn α)} (hn : Next f sel)
    (hs : ∀ c g, sel c = some g → JSound g none) (hst : ∀ c g, sel c = some g → Still g) (hx : ∀ c g, sel c = some g → Ext g)
    (hsel : ∀ c g, sel c = some g → isWs c = false)
    {s : RJ} {fuel : Nat} (h : s.Sync) (hl : 0 < s.b.buf.length) (hf : enoughFuel s fuel) (hff : NoFeed s.rest)
    {s' : RJ} {v : α} (hok : s.loopUntilSuccess fuel f none false = (s', .ok v)) :
    ∃ n, f s.rest = (n, .ok v) ∧ s.Moved s' n := by
  obtain ⟨ws, c, t, g, d, m, h1, h2, h3, ⟨x, hd⟩, h4, h5, _⟩ := next_value hn hs hst h hl hf hok
  rw [h1] at hff
  have hw := (ws_iff ws).mpr (hff.spaces h2)
  refine ⟨ws.length + m, ?_, h5⟩
  rw [h1, hn.good _ _ _ _ (peek_tok hw (hsel c g h3) t) h3, List.drop_left, ← hd, hx c g h3 _ x _ _ h4]

/-! ## C41 -/

/-- **C41, partial**: the four `known_*` calls for atoms. Positioned on a token (no whitespace, no form feed), an
`Ok` is what jiter returns for the complete document. Full statement: for every call and every position; it is false, see
`C41_trailing_comma_accepted` in `PropsCalls.lean` and the witnesses below. -/
theorem C41_known_partial (s : RJ) (fuel : Nat) (h : s.Sync) (hf : enoughFuel s fuel) (hl : 0 < s.b.buf.length) (c : Byte) (t : Bytes)
    (hr : s.rest = c :: t) (hc : ¬ Space c) (hff : c ≠ 12) (s' : RJ) :
    (∀ v, s.knownBytes fuel = (s', .ok v) → ∃ n, Jiter.knownBytes s.rest = (n, .ok v) ∧ s.Moved s' n) ∧
    (∀ v, s.knownStr fuel = (s', .ok v) → ∃ n, Jiter.knownStr s.rest = (n, .ok v) ∧ s.Moved s' n) ∧
    (∀ v, s.knownNull fuel = (s', .ok v) → ∃ n, Jiter.knownNull s.rest = (n, .ok v) ∧ s.Moved s' n) ∧
    (∀ pk v, s.knownBool fuel pk = (s', .ok v) → ∃ n, Jiter.knownBool pk s.rest = (n, .ok v) ∧ s.Moved s' n) :=
  ⟨fun _ hok => known_complete (PrefixFn.jsound knownBytes_prefix) knownBytes_still knownBytes_ext h hf hl hr hc hff hok,
   fun _ hok => known_complete (PrefixFn.jsound knownStr_prefix) knownStr_still knownStr_ext h hf hl hr hc hff hok,
   fun _ hok => known_complete (PrefixFn.jsound knownNull_prefix) (consumeIdent_still _ _) knownNull_ext h hf hl hr hc hff hok,
   fun pk _ hok => known_complete (PrefixFn.jsound (knownBool_prefix pk)) (knownBool_still pk) (knownBool_ext pk) h hf hl hr hc hff hok⟩

/-- **C41, partial**: `peek` and the `next_*` calls for strings, `null` and booleans. -/
theorem C41_next_partial (s : RJ) (fuel : Nat) (h : s.Sync) (hl : 0 < s.b.buf.length) (hf : enoughFuel s fuel) (hff : NoFeed s.rest)
    (s' : RJ) :
    (∀ v, s.nextBytes fuel = (s', .ok v) → ∃ n, Jiter.nextString Jiter.knownBytes s.rest = (n, .ok v) ∧ s.Moved s' n) ∧
    (∀ v, s.nextStr fuel = (s', .ok v) → ∃ n, Jiter.nextString Jiter.knownStr s.rest = (n, .ok v) ∧ s.Moved s' n) ∧
    (∀ v, s.nextNull fuel = (s', .ok v) → ∃ n, Jiter.nextNull s.rest = (n, .ok v) ∧ s.Moved s' n) ∧
    (∀ v, s.nextBool fuel = (s', .ok v) → ∃ n, Jiter.nextBool s.rest = (n, .ok v) ∧ s.Moved s' n) := by
  have str : ∀ (known : JFn Bytes), PrefixFn known → Still known → Ext known → ∀ v,
      s.loopUntilSuccess fuel (Jiter.nextString known) none false = (s', .ok v) →
      ∃ n, Jiter.nextString known s.rest = (n, .ok v) ∧ s.Moved s' n := by
    intro known k1 k2 k3 v hok
    have hsel : ∀ (c : Byte) g, (if c = 34 then some known else none) = some g → c = 34 ∧ g = known := by
      intro c g hg
      by_cases hc : c = (34 : Byte)
      · rw [if_pos hc] at hg; injection hg with hg; exact ⟨hc, hg.symm⟩
      · rw [if_neg hc] at hg; cases hg
    refine next_complete (nextString_next known) ?_ ?_ ?_ ?_ h hl hf hff hok
    · intro c g hg; obtain ⟨_, rfl⟩ := hsel c g hg; exact PrefixFn.jsound k1
    · intro c g hg; obtain ⟨_, rfl⟩ := hsel c g hg; exact k2
    · intro c g hg; obtain ⟨_, rfl⟩ := hsel c g hg; exact k3
    · intro c g hg; obtain ⟨rfl, _⟩ := hsel c g hg; decide
  refine ⟨str _ knownBytes_prefix knownBytes_still knownBytes_ext, str _ knownStr_prefix knownStr_still knownStr_ext, ?_, ?_⟩
  · intro v hok
    have hsel : ∀ (c : Byte) g, (if c = 110 then some Jiter.knownNull else none) = some g → c = 110 ∧ g = Jiter.knownNull := by
      intro c g hg
      by_cases hc : c = (110 : Byte)
      · rw [if_pos hc] at hg; injection hg with hg; exact ⟨hc, hg.symm⟩
      · rw [if_neg hc] at hg; cases hg
    refine next_complete nextNull_next ?_ ?_ ?_ ?_ h hl hf hff hok
    · intro c g hg; obtain ⟨_, rfl⟩ := hsel c g hg; exact PrefixFn.jsound knownNull_prefix
    · intro c g hg; obtain ⟨_, rfl⟩ := hsel c g hg; exact consumeIdent_still _ _
    · intro c g hg; obtain ⟨_, rfl⟩ := hsel c g hg; exact knownNull_ext
    · intro c g hg; obtain ⟨rfl, _⟩ := hsel c g hg; decide
  · intro v hok
    have hsel : ∀ (c : Byte) g, (if c = 116 ∨ c = 102 then some (Jiter.knownBool c) else none) = some g →
        (c = 116 ∨ c = 102) ∧ g = Jiter.knownBool c := by
      intro c g hg
      by_cases hc : c = (116 : Byte) ∨ c = 102
      · rw [if_pos hc] at hg; injection hg with hg; exact ⟨hc, hg.symm⟩
      · rw [if_neg hc] at hg; cases hg
    refine next_complete nextBool_next ?_ ?_ ?_ ?_ h hl hf hff hok
    · intro c g hg; obtain ⟨_, rfl⟩ := hsel c g hg; exact PrefixFn.jsound (knownBool_prefix c)
    · intro c g hg; obtain ⟨_, rfl⟩ := hsel c g hg; exact knownBool_still c
    · intro c g hg; obtain ⟨_, rfl⟩ := hsel c g hg; exact knownBool_ext c
    · intro c g hg; obtain ⟨hc, _⟩ := hsel c g hg; rcases hc with rfl | rfl <;> decide

/-- A string with spaces in front, in single bytes, with a buffer that just holds it. -/
example : (RJ.new exStrReader (List.replicate 7 0)).Sync ∧ enoughFuel (RJ.new exStrReader (List.replicate 7 0)) 30 ∧
    NoFeed (RJ.new exStrReader (List.replicate 7 0)).rest ∧
    ((RJ.new exStrReader (List.replicate 7 0)).nextStr 30).2 = .ok [97, 0xC3, 0xA9, 10] := by
  refine ⟨sync_new _ _, by decide, ?_, by decide +kernel⟩
  intro ws c t hr hw
  have hr' : (RJ.new exStrReader (List.replicate 7 0)).rest = [32, 34, 97, 0xC3, 0xA9, 92, 110, 34, 44] := by decide
  rw [hr'] at hr
  rintro rfl
  have hmem : (12 : Byte) ∈ ws ++ 12 :: t := by simp
  rw [← hr] at hmem
  revert hmem; decide

/-- **C41 is false** for keys: `next_key` accepts a comma in front of the closing brace, and two commas. -/
theorem C41_key_commas_accepted : ∃ s1 s2 : RJ, s1.Sync ∧ s2.Sync ∧ s1.b.reader.Clean ∧ s2.b.reader.Clean ∧
    s1.rest = [44, 125] ∧ s2.rest = [44, 44, 34, 107, 34, 58, 49, 125] ∧
    (∃ e, (Jiter.nextKey Jiter.knownStr s1.rest).2 = .error e) ∧ (∃ e, (Jiter.nextKey Jiter.knownStr s2.rest).2 = .error e) ∧
    (s1.nextKey 40).2 = .ok none ∧ (s2.nextKey 40).2 = .ok (some [107]) := by
  refine ⟨((RJ.new [.data 44 [125]] (List.replicate 20 0)).peek 20).1,
    ((RJ.new [.data 44 [44, 34, 107, 34, 58, 49, 125]] (List.replicate 20 0)).peek 40).1, ⟨?_, ?_, ?_⟩, ⟨?_, ?_, ?_⟩, ?_, ?_, ?_, ?_,
    ⟨⟨.json .trailingComma, 1⟩, rfl⟩, ⟨⟨.json .keyMustBeAString, 1⟩, rfl⟩, ?_⟩ <;> decide +kernel

/-- **C41 is false** for objects: `known_object` accepts `{?"k":`. -/
theorem C41_object_junk_accepted : ∃ s : RJ, s.Sync ∧ s.b.reader.Clean ∧ s.rest = [123, 63, 34, 107, 34, 58, 49, 125] ∧
    (∃ e, (Jiter.knownObject Jiter.knownStr s.rest).2 = .error e) ∧ (s.knownObject 40).2 = .ok (some [107]) := by
  refine ⟨((RJ.new [.data 123 [63, 34, 107, 34, 58, 49, 125]] (List.replicate 20 0)).peek 40).1, ⟨?_, ?_, ?_⟩, ?_, ?_,
    ⟨⟨.json .keyMustBeAString, 1⟩, rfl⟩, ?_⟩ <;> decide +kernel

/-! ## C44 -/

theorem str_of_prefix {c : Byte} {t d : Bytes} (hp : d <+: c :: t) {m : Nat} {v : Bytes} (h : Jiter.knownStr d = (m, .ok v)) :
    ∃ body chars t', t = body ++ 34 :: t' ∧ StrBody true body chars ∧ v = encAll chars ∧ m = body.length + 2 := by
  obtain ⟨body, t', e1, e2, hd, hu⟩ := knownStr_ok h
  obtain ⟨chars, rfl⟩ := utf8Valid_chars _ v (Nat.le_refl _) hu
  obtain ⟨x, hx⟩ := hp
  cases d with
  | nil => simp at e1
  | cons c' d =>
    rw [List.drop_succ_cons, List.drop_zero] at e1
    rw [List.cons_append] at hx
    injection hx with _ hx
    exact ⟨body, chars, t' ++ x, by rw [← hx, e1, List.append_assoc, List.cons_append], hd.chars _ rfl, rfl, e2⟩

theorem bytes_of_prefix {c : Byte} {t d : Bytes} (hp : d <+: c :: t) {m : Nat} {v : Bytes} (h : Jiter.knownBytes d = (m, .ok v)) :
    ∃ t', t = v ++ 34 :: t' ∧ m = v.length + 2 := by
  obtain ⟨t', e1, e2⟩ := knownBytes_ok h
  obtain ⟨x, hx⟩ := hp
  cases d with
  | nil => simp at e1
  | cons c' d =>
    rw [List.drop_succ_cons, List.drop_zero] at e1
    rw [List.cons_append] at hx
    injection hx with _ hx
    exact ⟨t' ++ x, by rw [← hx, e1, List.append_assoc, List.cons_append], e2⟩

theorem ident_of_prefix {α : Type} {c : Byte} {t d : Bytes} (hp : d <+: c :: t) {m : Nat} {rest : Bytes} (hr : rest ≠ []) {v w : α}
    (h : consumeIdent rest v d = (m, .ok w)) : ∃ t', t = rest ++ t' ∧ w = v ∧ m = 1 + rest.length := by
  obtain ⟨e1, e2, t', e3⟩ := consumeIdent_ok h
  obtain ⟨x, hx⟩ := hp
  cases d with
  | nil => simp at e3; exact absurd e3.1 hr
  | cons c' d =>
    rw [List.drop_succ_cons, List.drop_zero] at e3
    rw [List.cons_append] at hx
    injection hx with _ hx
    exact ⟨t' ++ x, by rw [← hx, e3, List.append_assoc], e1, e2⟩

/-- **C44** (`known_str`): positioned on a quote, an `Ok(v)` means that there is a valid string, and `v` are its characters. -/
theorem C44_known_str (s : RJ) (fuel : Nat) (h : s.Sync) (hl : 0 < s.b.buf.length) (hf : enoughFuel s fuel) (t : Bytes)
    (hr : s.rest = 34 :: t) (s' : RJ) (v : Bytes) (hok : s.knownStr fuel = (s', .ok v)) :
    ∃ body chars t', s.rest = 34 :: (body ++ 34 :: t') ∧ StrBody true body chars ∧ v = encAll chars ∧ s.Moved s' (body.length + 2) := by
  obtain ⟨d, n, hp, h1, h2⟩ := known_value (PrefixFn.jsound knownStr_prefix) knownStr_still h hf hl hr (by simp [Space]) (by decide) hok
  rw [hr] at hp
  obtain ⟨body, chars, t', rfl, g1, g2, g3⟩ := str_of_prefix hp h1
  exact ⟨body, chars, t', hr, g1, g2, g3 ▸ h2⟩

/-- **C44** (`known_bytes`). -/
theorem C44_known_bytes (s : RJ) (fuel : Nat) (h : s.Sync) (hl : 0 < s.b.buf.length) (hf : enoughFuel s fuel) (t : Bytes)
    (hr : s.rest = 34 :: t) (s' : RJ) (v : Bytes) (hok : s.knownBytes fuel = (s', .ok v)) :
    ∃ t', s.rest = 34 :: (v ++ 34 :: t') ∧ s.Moved s' (v.length + 2) := by
  obtain ⟨d, n, hp, h1, h2⟩ := known_value (PrefixFn.jsound knownBytes_prefix) knownBytes_still h hf hl hr (by simp [Space]) (by decide) hok
  rw [hr] at hp
  obtain ⟨t', rfl, g3⟩ := bytes_of_prefix hp h1
  exact ⟨t', hr, g3 ▸ h2⟩

/-- **C44** (`next_str`), from any position. -/
theorem C44_next_str (s : RJ) (fuel : Nat) (h : s.Sync) (hl : 0 < s.b.buf.length) (hf : enoughFuel s fuel)
    (s' : RJ) (v : Bytes) (hok : s.nextStr fuel = (s', .ok v)) :
    ∃ ws body chars t, s.rest = ws ++ 34 :: (body ++ 34 :: t) ∧ Blank ws ∧ StrBody true body chars ∧ v = encAll chars ∧
      s.Moved s' (ws.length + (body.length + 2)) := by
  have hsel : ∀ (c : Byte) g, (if c = 34 then some Jiter.knownStr else none) = some g → c = 34 ∧ g = Jiter.knownStr := by
    intro c g hg
    by_cases hc : c = (34 : Byte)
    · rw [if_pos hc] at hg; injection hg with hg; exact ⟨hc, hg.symm⟩
    · rw [if_neg hc] at hg; cases hg
  obtain ⟨ws, c, t, g, d, m, h1, h2, h3, h4, h5, h6, _⟩ := next_value (nextString_next Jiter.knownStr)
    (fun c g hg => by obtain ⟨_, rfl⟩ := hsel c g hg; exact PrefixFn.jsound knownStr_prefix)
    (fun c g hg => by obtain ⟨_, rfl⟩ := hsel c g hg; exact knownStr_still) h hl hf hok
  obtain ⟨rfl, rfl⟩ := hsel c g h3
  obtain ⟨body, chars, t', rfl, g1, g2, g3⟩ := str_of_prefix h4 h5
  exact ⟨ws, body, chars, t', h1, h2, g1, g2, g3 ▸ h6⟩

/-- **C44** (`next_bytes`), from any position. -/
theorem C44_next_bytes (s : RJ) (fuel : Nat) (h : s.Sync) (hl : 0 < s.b.buf.length) (hf : enoughFuel s fuel)
    (s' : RJ) (v : Bytes) (hok : s.nextBytes fuel = (s', .ok v)) :
    ∃ ws t, s.rest = ws ++ 34 :: (v ++ 34 :: t) ∧ Blank ws ∧ s.Moved s' (ws.length + (v.length + 2)) := by
  have hsel : ∀ (c : Byte) g, (if c = 34 then some Jiter.knownBytes else none) = some g → c = 34 ∧ g = Jiter.knownBytes := by
    intro c g hg
    by_cases hc : c = (34 : Byte)
    · rw [if_pos hc] at hg; injection hg with hg; exact ⟨hc, hg.symm⟩
    · rw [if_neg hc] at hg; cases hg
  obtain ⟨ws, c, t, g, d, m, h1, h2, h3, h4, h5, h6, _⟩ := next_value (nextString_next Jiter.knownBytes)
    (fun c g hg => by obtain ⟨_, rfl⟩ := hsel c g hg; exact PrefixFn.jsound knownBytes_prefix)
    (fun c g hg => by obtain ⟨_, rfl⟩ := hsel c g hg; exact knownBytes_still) h hl hf hok
  obtain ⟨rfl, rfl⟩ := hsel c g h3
  obtain ⟨t', rfl, g3⟩ := bytes_of_prefix h4 h5
  exact ⟨ws, t', h1, h2, g3 ▸ h6⟩

/-- **C44** (`next_null`). -/
theorem C44_next_null (s : RJ) (fuel : Nat) (h : s.Sync) (hl : 0 < s.b.buf.length) (hf : enoughFuel s fuel)
    (s' : RJ) (hok : s.nextNull fuel = (s', .ok ())) :
    ∃ ws t, s.rest = ws ++ [110, 117, 108, 108] ++ t ∧ Blank ws ∧ s.Moved s' (ws.length + 4) := by
  have hsel : ∀ (c : Byte) g, (if c = 110 then some Jiter.knownNull else none) = some g → c = 110 ∧ g = Jiter.knownNull := by
    intro c g hg
    by_cases hc : c = (110 : Byte)
    · rw [if_pos hc] at hg; injection hg with hg; exact ⟨hc, hg.symm⟩
    · rw [if_neg hc] at hg; cases hg
  obtain ⟨ws, c, t, g, d, m, h1, h2, h3, h4, h5, h6, _⟩ := next_value nextNull_next
    (fun c g hg => by obtain ⟨_, rfl⟩ := hsel c g hg; exact PrefixFn.jsound knownNull_prefix)
    (fun c g hg => by obtain ⟨_, rfl⟩ := hsel c g hg; exact consumeIdent_still _ _) h hl hf hok
  obtain ⟨rfl, rfl⟩ := hsel c g h3
  obtain ⟨t', rfl, _, g3⟩ := ident_of_prefix h4 (by simp) h5
  exact ⟨ws, t', by rw [h1]; simp, h2, by subst g3; exact h6⟩

/-- **C44** (`next_bool`). -/
theorem C44_next_bool (s : RJ) (fuel : Nat) (h : s.Sync) (hl : 0 < s.b.buf.length) (hf : enoughFuel s fuel)
    (s' : RJ) (v : Bool) (hok : s.nextBool fuel = (s', .ok v)) :
    ∃ ws t, s.rest = ws ++ (if v then [116, 114, 117, 101] else [102, 97, 108, 115, 101]) ++ t ∧ Blank ws ∧
      s.Moved s' (ws.length + (if v then 4 else 5)) := by
  have hsel : ∀ (c : Byte) g, (if c = 116 ∨ c = 102 then some (Jiter.knownBool c) else none) = some g →
      (c = 116 ∨ c = 102) ∧ g = Jiter.knownBool c := by
    intro c g hg
    by_cases hc : c = (116 : Byte) ∨ c = 102
    · rw [if_pos hc] at hg; injection hg with hg; exact ⟨hc, hg.symm⟩
    · rw [if_neg hc] at hg; cases hg
  obtain ⟨ws, c, t, g, d, m, h1, h2, h3, h4, h5, h6, _⟩ := next_value nextBool_next
    (fun c g hg => by obtain ⟨_, rfl⟩ := hsel c g hg; exact PrefixFn.jsound (knownBool_prefix c))
    (fun c g hg => by obtain ⟨_, rfl⟩ := hsel c g hg; exact knownBool_still c) h hl hf hok
  obtain ⟨hc, rfl⟩ := hsel c g h3
  rcases hc with rfl | rfl
  · obtain ⟨t', rfl, rfl, g3⟩ := ident_of_prefix h4 (by simp) (v := true) (rest := [114, 117, 101]) h5
    exact ⟨ws, t', by rw [h1]; simp, h2, by subst g3; exact h6⟩
  · obtain ⟨t', rfl, rfl, g3⟩ := ident_of_prefix h4 (by simp) (v := false) (rest := [97, 108, 115, 101]) h5
    exact ⟨ws, t', by rw [h1]; simp, h2, by subst g3; exact h6⟩

/-- **C44** (`next_number_bytes`): an `Ok(v)` means that `v` is a number and is there; and either no longer beginning of the rest is the beginning of a
number, or the stream ends behind it, or it fills the whole buffer. (The last case is C19's and C42's truncation.) -/
theorem C44_next_number (s : RJ) (fuel : Nat) (h : s.Sync) (hl : 0 < s.b.buf.length) (hf : enoughFuel s fuel)
    (s' : RJ) (v : Bytes) (hok : s.nextNumberBytes fuel = (s', .ok v)) :
    ∃ ws t, s.rest = ws ++ (v ++ t) ∧ Blank ws ∧ Number v ∧ s.Moved s' (ws.length + v.length) ∧
      ((∀ c b y, t = c :: b → ¬ Number (v ++ c :: y)) ∨ t = [] ∨ v.length = s.b.buf.length) := by
  have hsel : ∀ (c : Byte) g, (if c = 45 ∨ isDigit c = true then some numberTok else none) = some g → g = numberTok := by
    intro c g hg
    by_cases hc : c = 45 ∨ isDigit c = true
    · rw [if_pos hc] at hg; injection hg with hg; exact hg.symm
    · rw [if_neg hc] at hg; cases hg
  obtain ⟨ws, c, t, g, d, m, h1, h2, h3, ⟨x, hd⟩, h5, h6, h7⟩ := next_value nextNumber_next
    (fun c g hg => by obtain rfl := hsel c g hg; exact numberTok_jsound)
    (fun c g hg => by obtain rfl := hsel c g hg; exact numberTok_still) h hl hf hok
  obtain rfl := hsel c g h3
  have hb := (numberTok_jsound.bound _ _ _ h5).1
  simp only [numberTok] at h5
  cases hn : numberEnd d with
  | error e => rw [hn] at h5; simp [jerr] at h5
  | ok m' =>
    have h5' := h5
    rw [hn] at h5
    simp only [Prod.mk.injEq, Except.ok.injEq] at h5
    obtain ⟨rfl, rfl⟩ := h5
    have hlen : (d.take m').length = m' := by rw [List.length_take]; omega
    refine ⟨ws, d.drop m' ++ x, ?_, h2, numberEnd_ok hn, by rw [hlen]; exact h6, ?_⟩
    · rw [h1, ← List.append_assoc (d.take m'), List.take_append_drop, hd]
    · by_cases hlt : m' < d.length
      · left
        intro c0 b y hab hnum
        obtain ⟨g1, _⟩ := numberTok_good (d := d) (n := m') (v := d.take m') (by simp only [numberTok, hn]) hlt
        have g2 := g1.enough (m' + 1) (Nat.le_refl _) hlt
        -- the same m' + 1 bytes as a part of the longer number
        have e1 : d.take (m' + 1) = (d.take m' ++ c0 :: y).take (m' + 1) := by
          have hx : (d ++ x).take (m' + 1) = d.take (m' + 1) := by rw [List.take_append_of_le_length (by omega)]
          rw [← hx]
          conv => lhs; rw [← List.take_append_drop m' d, List.append_assoc, hab]
          rw [List.take_append, List.take_append, hlen]
          simp
        have hal : m' + 1 ≤ (d.take m' ++ c0 :: y).length := by
          rw [List.length_append, hlen]
          simp
        rw [e1] at g2
        simp only [numberTok] at g2
        rcases numberEnd_take hnum hal (by omega) with g3 | ⟨j, g3⟩
        · rw [g3] at g2
          simp only [Prod.mk.injEq] at g2
          omega
        · rw [g3] at g2; simp [jerr] at g2
      · have hfull : m' = d.length := by omega
        rcases h7 rfl with h8 | h8 | h8
        · omega
        · right; left
          rw [hfull, List.drop_length, List.nil_append]
          rw [← hd] at h8
          simpa using h8
        · right; right
          rw [hlen]; omega

/-- The calls do return values: `next_number_bytes` on ` 12.5,` in single bytes, `next_bool`, `next_null`. -/
example : (RJ.new (oneByOne [32, 49, 50, 46, 53, 44]) (List.replicate 6 0)).Sync ∧
    ((RJ.new (oneByOne [32, 49, 50, 46, 53, 44]) (List.replicate 6 0)).nextNumberBytes 30).2 = .ok [49, 50, 46, 53] ∧
    ((RJ.new (oneByOne [32, 116, 114, 117, 101]) (List.replicate 6 0)).nextBool 30).2 = .ok true ∧
    ((RJ.new (oneByOne [32, 110, 117, 108, 108]) (List.replicate 6 0)).nextNull 30).2 = .ok () ∧
    ((RJ.new (oneByOne [34, 97, 92, 110, 34]) (List.replicate 6 0)).knownStr 30).2 = .ok [97, 10] ∧
    ((RJ.new (oneByOne [34, 97, 92, 110, 34]) (List.replicate 6 0)).knownBytes 30).2 = .ok [97, 92, 110] ∧
    ((RJ.new (oneByOne [32, 34, 97, 92, 110, 34]) (List.replicate 6 0)).nextBytes 30).2 = .ok [97, 92, 110] :=
  ⟨sync_new _ _, by decide +kernel⟩

end Verif.RJiter
