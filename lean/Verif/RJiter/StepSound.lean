import Verif.RJiter.PropsValue

/-!
# What an `Ok` of the calls with a transparent token says about the stream

`known_array`, `array_step`, `next_object_bytes` and `next_key_bytes` may try again at the place where a failed attempt
left jiter (see C17). The lemmas here exclude this with `Calm`: on no beginning of the stream does a second attempt succeed.
-/

namespace Verif.RJiter

open Buffer RJ Jiter

/-- On no beginning of `x` a failed attempt is followed by a successful one at another place. -/
def Calm {α : Type} (f : JFn α) (x : Bytes) : Prop :=
  ∀ d, d <+: x → ∀ n e, f d = (n, .error e) → n = 0 ∨ ∀ m w, f (d.drop n) ≠ (m, .ok w)

theorem Calm.of_prefix {α : Type} {f : JFn α} {x r : Bytes} (h : Calm f x) (hr : r <+: x) : Calm f r :=
  fun d hd => h d (hd.trans hr)

/-- Spaces as the buffer sees them. -/
abbrev AWs (l : Bytes) : Prop := ∀ c ∈ l, isAsciiWs c = true

theorem AWs.append {a b : Bytes} (ha : AWs a) (hb : AWs b) : AWs (a ++ b) := by
  intro c hc
  rcases List.mem_append.mp hc with h | h
  · exact ha c h
  · exact hb c h

theorem AWs.of_ws {a : Bytes} (h : Ws a) : AWs a := fun c hc => isAscii_of_isWs (h c hc)

/-- The two ways in which the text in front of the parser is given to jiter. -/
theorem norm_cases (tok : Option Byte) (r : Bytes) :
    (∃ ws, AWs ws ∧ r = ws ++ norm tok r) ∨
    ∃ t ws ws2 z, tok = some t ∧ AWs ws ∧ AWs ws2 ∧ r = ws ++ t :: (ws2 ++ z) ∧ norm tok r = t :: z := by
  have h1 := (List.takeWhile_append_dropWhile (p := isAsciiWs) (l := r)).symm
  have h2 : AWs (r.takeWhile isAsciiWs) := fun c hc => List.all_eq_true.mp (List.all_takeWhile ..) c hc
  unfold norm
  split
  · rename_i t c r2 heq
    rw [heq] at h1
    by_cases hc : c = t
    · right
      subst hc
      rw [if_pos rfl]
      exact ⟨c, _, r2.takeWhile isAsciiWs, r2.dropWhile isAsciiWs, rfl, h2,
        fun c hc => List.all_eq_true.mp (List.all_takeWhile ..) c hc,
        by rw [List.takeWhile_append_dropWhile]; exact h1, rfl⟩
    · rw [if_neg hc]
      exact .inl ⟨_, h2, h1⟩
  · exact .inl ⟨_, h2, h1⟩

/-- A success of a call whose jiter function accepted a beginning of the text, perhaps without the spaces around the token. -/
def Seen {α : Type} (f : JFn α) (tok : Option Byte) (s s' : RJ) (v : α) : Prop :=
  ∃ z d n, ((∃ ws, AWs ws ∧ s.rest = ws ++ z) ∨
      ∃ t ws ws2 z', tok = some t ∧ AWs ws ∧ AWs ws2 ∧ s.rest = ws ++ t :: (ws2 ++ z') ∧ z = t :: z') ∧
    d <+: z ∧ f d = (n, .ok v) ∧ s.Moved s' (s.rest.length - z.length + n)

/-- A success at the place where a failed attempt left jiter. -/
def Second {α : Type} (f : JFn α) (tok : Option Byte) (s s' : RJ) (v : α) : Prop :=
  s.jidx = 0 ∧ norm tok s.rest = s.rest ∧
    ∃ d n e m, d <+: s.rest ∧ f d = (n, .error e) ∧ f (d.drop n) = (m, .ok v) ∧ s.Moved s' (n + m)

/-- A success of a call, if second attempts are excluded. -/
theorem loop_calm {α : Type} {f : JFn α} {tok : Option Byte} {eager : Bool} (hs : JSound f tok)
    {s : RJ} {fuel : Nat} (h : s.Sync) (hl : 1 < s.b.buf.length) (hf : enoughFuel s fuel) (hcalm : Calm f s.rest)
    {s' : RJ} {v : α} (hok : s.loopUntilSuccess fuel f tok eager = (s', .ok v)) :
    Seen f tok s s' v := by
  unfold enoughFuel at hf
  have hpre : s.jdata <+: s.rest := ⟨s.b.reader.pending, (rest_eq h).symm⟩
  rcases loopUntilSuccess_value hs s fuel h (by omega) (fun _ => hl) (by omega)
    (fun _ _ n e he => hcalm _ hpre n e he) hok with ⟨k, n, ha, _, hm⟩ | ⟨k, n, ha, hm⟩
  · exact ⟨s.rest, _, n, .inl ⟨[], List.forall_mem_nil _, rfl⟩, List.take_prefix k _, ha.ok, by rw [Nat.sub_self, Nat.zero_add]; exact hm⟩
  · exact ⟨norm tok s.rest, _, n, norm_cases tok s.rest, List.take_prefix k _, ha.ok, hm⟩

/-- A success of a call: by a first attempt, or by a second one. -/
theorem loop_any {α : Type} {f : JFn α} {tok : Option Byte} (hs : JSound f tok)
    {s : RJ} {fuel : Nat} (h : s.Sync) (hl : 1 < s.b.buf.length) (hf : enoughFuel s fuel)
    {s' : RJ} {v : α} (hok : s.loopUntilSuccess fuel f tok false = (s', .ok v)) :
    Seen f tok s s' v ∨ Second f tok s s' v := by
  unfold enoughFuel at hf
  have hpre : s.jdata <+: s.rest := ⟨s.b.reader.pending, (rest_eq h).symm⟩
  by_cases hre : s.jidx = 0 → norm tok s.rest = s.rest → ∀ n e, f s.jdata = (n, .error e) →
      n = 0 ∨ ∀ m w, f (s.jdata.drop n) ≠ (m, .ok w)
  · left
    rcases loopUntilSuccess_value hs s fuel h (by omega) (fun _ => hl) (by omega) hre hok with ⟨k, n, ha, _, hm⟩ | ⟨k, n, ha, hm⟩
    · exact ⟨s.rest, _, n, .inl ⟨[], List.forall_mem_nil _, rfl⟩, List.take_prefix k _, ha.ok, by rw [Nat.sub_self, Nat.zero_add]; exact hm⟩
    · exact ⟨norm tok s.rest, _, n, norm_cases tok s.rest, List.take_prefix k _, ha.ok, hm⟩
  · simp only [Classical.not_imp, Classical.not_forall, not_or, ne_eq, Classical.not_not] at hre
    obtain ⟨h0, hno, n, e, he, hn, m, w, hw⟩ := hre
    simp only [loopUntilSuccess, call, he] at hok
    rcases skipSpacesFeeding_spec s { s with jidx := s.jidx + n } tok fuel h rfl rfl (by omega) (fun _ => hl) (by omega) with
      ⟨s2, e2, hfed, hjl, hpos⟩ | ⟨s2, kd, x, e2, hcl⟩
    · rw [e2] at hok
      simp only at hok
      by_cases hz : s2.jidx = 0
      · left
        obtain ⟨k, n, ha, hm⟩ := retryLoop_value hs s fuel s2 hfed hjl (.inl hz) s' v hok
        exact ⟨norm tok s.rest, _, n, norm_cases tok s.rest, List.take_prefix k _, ha.ok, hm⟩
      · right
        rcases hpos with h1 | ⟨h1, _, _, h4⟩
        · exact absurd h1 hz
        simp only [h0, Nat.zero_add] at h1
        have hjd : s2.jdata = s.jdata.drop n := by
          rw [jdata_eq h, h0, List.drop_zero, ← h4, jdata, hjl, h1]; rfl
        cases fuel with
        | zero => simp [retryLoop] at hok
        | succ fuel =>
          simp only [retryLoop, call, hjd, hw, reallyOk, Bool.not_false, Bool.true_or, if_true, Prod.mk.injEq, Res.ok.injEq] at hok
          obtain ⟨rfl, rfl⟩ := hok
          have hb := hs.bound _ _ _ hw
          have hjl2 : s2.jdata.length = s2.b.nBytes - n := by
            rw [jdata, hjl, h1, List.length_drop, List.length_take, Nat.min_eq_left hfed.ok]
          have hnle : n ≤ s2.b.nBytes := by
            rcases Nat.lt_or_ge s2.b.nBytes n with h5 | h5
            · exfalso
              apply hb.2
              rw [← hjd]
              exact List.length_eq_zero_iff.mp (by omega)
            · exact h5
          have hble := hb.1
          rw [← hjd, hjl2] at hble
          have hm := Moved.ofFed (tok := tok) (s' := { s2 with jidx := s2.jidx + m }) hfed hjl (by simp only; omega) (.inl hno)
          rw [hno, Nat.sub_self, Nat.zero_add] at hm
          simp only [h1] at hm
          exact ⟨h0, hno, s.jdata, n, e, m, hpre, he, hw, by rw [h1]; exact hm⟩
    · rw [e2] at hok; simp at hok

theorem rest_after {s s' : RJ} {n : Nat} {a t : Bytes} (hm : s.Moved s' n) (hr : s.rest = a ++ t) (hn : n = a.length) :
    s'.rest = t := by
  subst hn; rw [hm.rest, hr, List.drop_left]

/-! ## `peek` -/

theorem peek_calm (x : Bytes) : Calm Jiter.peek x := by
  intro d _ n e he
  right
  rcases ws_split d with hw | ⟨ws, c, t, rfl, hw, hc⟩
  · rw [peek_ws hw] at he
    simp only [Prod.mk.injEq] at he
    obtain ⟨rfl, _⟩ := he
    intro m w hx
    rw [List.drop_eq_nil_of_le (Nat.le_refl _)] at hx
    rw [show Jiter.peek [] = _ from peek_ws Ws.nil] at hx
    simp at hx
  · rw [peek_tok hw hc] at he; simp at he

theorem RJ.peek_text {s s' : RJ} {fuel : Nat} {c : Byte} (h : s.Sync) (hl : 1 < s.b.buf.length) (hf : enoughFuel s fuel)
    (hok : s.peek fuel = (s', .ok c)) :
    ∃ ws t, s.rest = ws ++ c :: t ∧ AWs ws ∧ isWs c = false ∧ s'.rest = c :: t ∧ ∃ n, s.Moved s' n := by
  obtain ⟨z, d, n, hz, ⟨u, rfl⟩, hd, hm⟩ := loop_calm peek_jsound h hl hf (peek_calm _) hok
  obtain ⟨w, r, rfl, hw, hc, rfl⟩ := peek_ok hd
  rcases hz with ⟨ws, hws, e⟩ | ⟨t, _, _, _, ht, _⟩
  · refine ⟨ws ++ w, r ++ u, by rw [e]; simp, hws.append (.of_ws hw), hc, ?_, _, hm⟩
    exact rest_after (a := ws ++ w) hm (by rw [e]; simp) (by rw [e]; simp <;> omega)
  · cases ht

/-! ## Arrays -/

theorem knownArray_calm (x : Bytes) : Calm Jiter.knownArray x := by
  intro d _ n e he
  right
  intro m w hx
  cases d with
  | nil =>
    rw [List.drop_nil, knownArray_nil] at hx
    simp at hx
  | cons a d =>
    rcases ws_split d with hw | ⟨ws, c, t, rfl, hw, hc⟩
    · rw [knownArray_ws a hw] at he
      simp only [Prod.mk.injEq] at he
      obtain ⟨rfl, _⟩ := he
      rw [List.drop_eq_nil_of_le (by simp <;> omega), knownArray_nil] at hx
      simp at hx
    · rw [knownArray_tok a hw hc] at he
      split at he <;> simp at he

/-- `known_array` in front of some byte `q` that is not a space. -/
theorem RJ.knownArray_text {s s' : RJ} {fuel : Nat} {v : Option Byte} (h : s.Sync) (hl : 1 < s.b.buf.length) (hf : enoughFuel s fuel)
    (hq : ∀ c, s.rest.head? = some c → isAsciiWs c = false) (hok : s.knownArray fuel = (s', .ok v)) :
    ∃ q ws c t, s.rest = q :: (ws ++ c :: t) ∧ AWs ws ∧ isWs c = false ∧ (∃ n, s.Moved s' n) ∧
      (c = 93 ∧ v = none ∧ s'.rest = t ∨ c ≠ 93 ∧ v = some c ∧ s'.rest = c :: t) := by
  obtain ⟨z, d, n, hz, ⟨u, rfl⟩, hd, hm⟩ := loop_calm knownArray_jsound h hl hf (knownArray_calm _) hok
  obtain ⟨q, w, c, r, rfl, hw, hc⟩ := knownArray_ok hd
  rw [knownArray_tok q hw hc] at hd
  -- the text in front of the parser, and how much of it is consumed
  obtain ⟨W, hW, e, hlen⟩ : ∃ W, AWs W ∧ s.rest = q :: (W ++ c :: (r ++ u)) ∧
      s.rest.length - (q :: (w ++ c :: r) ++ u).length + w.length = W.length := by
    rcases hz with ⟨ws, hws, e⟩ | ⟨t, ws, ws2, z', ht, hws, hws2, e, ez⟩
    · cases ws with
      | nil => exact ⟨w, .of_ws hw, by rw [e]; simp, by rw [e]; simp⟩
      | cons a ws =>
        exfalso
        have h1 := hq a (by rw [e]; rfl)
        rw [hws a (by simp)] at h1
        exact absurd h1 (by decide)
    · cases ws with
      | nil =>
        simp only [List.cons_append, List.append_assoc, List.cons.injEq] at ez
        obtain ⟨rfl, rfl⟩ := ez
        refine ⟨ws2 ++ w, hws2.append (.of_ws hw), by rw [e]; simp, by rw [e]; simp <;> omega⟩
      | cons a ws =>
        exfalso
        have h1 := hq a (by rw [e]; rfl)
        rw [hws a (by simp)] at h1
        exact absurd h1 (by decide)
  refine ⟨q, W, c, r ++ u, e, hW, hc, ⟨_, hm⟩, ?_⟩
  by_cases h93 : c = 93
  · subst h93
    simp only [if_true, Prod.mk.injEq, Except.ok.injEq] at hd
    refine .inl ⟨rfl, hd.2.symm, rest_after (a := q :: (W ++ [93])) hm (by rw [e]; simp) ?_⟩
    rw [← hd.1]; simp at hlen ⊢; omega
  · rw [if_neg h93] at hd
    simp only [Prod.mk.injEq, Except.ok.injEq] at hd
    refine .inr ⟨h93, hd.2.symm, rest_after (a := q :: W) hm (by rw [e]; simp) ?_⟩
    rw [← hd.1]; simp at hlen ⊢; omega

/-- Where an `array_step` that fails leaves jiter. -/
theorem arrayStep_err {d : Bytes} {n : Nat} {e : JErr} (h : Jiter.arrayStep d = (n, .error e)) :
    d.drop n = [] ∨ (∃ ws ws2 t, d = ws ++ 44 :: (ws2 ++ 93 :: t) ∧ Ws ws ∧ Ws ws2) ∨
      ∃ ws c t, d = ws ++ c :: t ∧ Ws ws ∧ isWs c = false ∧ c ≠ 44 ∧ c ≠ 93 := by
  rcases ws_split d with hw | ⟨ws, c, t, rfl, hw, hc⟩
  · rw [arrayStep_ws hw] at h
    simp only [Prod.mk.injEq] at h
    exact .inl (List.drop_eq_nil_of_le (by omega))
  · rw [arrayStep_tok hw hc] at h
    by_cases h1 : c = 44
    · subst h1
      rw [if_pos rfl] at h
      rcases ws_split t with hw2 | ⟨ws2, c2, t2, rfl, hw2, hc2⟩
      · rw [wsLen_all hw2, List.drop_length] at h
        simp only [jerr, Prod.mk.injEq] at h
        exact .inl (List.drop_eq_nil_of_le (by simp <;> omega))
      · rw [wsLen_cons hw2 hc2, List.drop_left] at h
        simp only at h
        by_cases h2 : c2 = 93
        · subst h2; exact .inr (.inl ⟨ws, ws2, t2, rfl, hw, hw2⟩)
        · rw [if_neg h2] at h; simp at h
    · rw [if_neg h1] at h
      by_cases h2 : c = 93
      · rw [if_pos h2] at h; simp at h
      · exact .inr (.inr ⟨ws, c, t, rfl, hw, hc, h1, h2⟩)

/-- Comparing two texts that start with spaces. -/
theorem spaces_unique {W b U u : Bytes} {c c' : Byte} (hW : AWs W) (hc : isWs c = false) (hb : Ws b)
    (hc' : isAsciiWs c' = false) (e : W ++ c :: U = b ++ c' :: u) : W = b ∧ c = c' ∧ U = u := by
  induction W generalizing b with
  | nil =>
    cases b with
    | nil => simpa using e
    | cons x b =>
      simp only [List.nil_append, List.cons_append, List.cons.injEq] at e
      rw [e.1, hb x (by simp)] at hc
      exact absurd hc (by decide)
  | cons y W ih =>
    cases b with
    | nil =>
      simp only [List.nil_append, List.cons_append, List.cons.injEq] at e
      rw [← e.1, hW y (by simp)] at hc'
      exact absurd hc' (by decide)
    | cons x b =>
      simp only [List.cons_append, List.cons.injEq] at e
      obtain ⟨h1, h2, h3⟩ := ih (fun c h => hW c (by simp [h])) (fun c h => hb c (by simp [h])) e.2
      exact ⟨by rw [e.1, h1], h2, h3⟩

/-- `[` may be followed by items, and items by `,` or `]`: nothing to try again. -/
theorem arrayStep_calm_end {a u : Bytes} (ha : Ws a) : Calm Jiter.arrayStep (a ++ 93 :: u) := by
  rintro d ⟨v, hv⟩ n e he
  right
  intro m w hx
  rcases arrayStep_err he with h1 | ⟨ws, ws2, t, rfl, hw, hw2⟩ | ⟨ws, c, t, rfl, hw, hc, h44, h93⟩
  · rw [h1] at hx; exact absurd (show Jiter.arrayStep [] = (m, .ok w) from hx) (by rw [arrayStep_ws Ws.nil]; simp)
  · rw [List.append_assoc, List.cons_append] at hv
    have := (spaces_unique (.of_ws hw) (by decide) ha (by decide) hv).2.1
    exact absurd this (by decide)
  · rw [List.append_assoc, List.cons_append] at hv
    exact h93 (spaces_unique (.of_ws hw) hc ha (by decide) hv).2.1

theorem arrayStep_calm_comma {a b u : Bytes} {c : Byte} (ha : Ws a) (hb : Ws b) (hc : isAsciiWs c = false) (h93 : c ≠ 93) :
    Calm Jiter.arrayStep (a ++ 44 :: (b ++ c :: u)) := by
  rintro d ⟨v, hv⟩ n e he
  right
  intro m w hx
  rcases arrayStep_err he with h1 | ⟨ws, ws2, t, rfl, hw, hw2⟩ | ⟨ws, c2, t, rfl, hw, hc2, h44, _⟩
  · rw [h1] at hx; exact absurd (show Jiter.arrayStep [] = (m, .ok w) from hx) (by rw [arrayStep_ws Ws.nil]; simp)
  · rw [List.append_assoc, List.cons_append] at hv
    have h1 := (spaces_unique (.of_ws hw) (by decide) ha (by decide) hv).2.2
    rw [List.append_assoc, List.cons_append] at h1
    exact h93 (spaces_unique (.of_ws hw2) (by decide) hb hc h1).2.1.symm
  · rw [List.append_assoc, List.cons_append] at hv
    exact h44 (spaces_unique (.of_ws hw) hc2 ha (by decide) hv).2.1

theorem RJ.arrayStep_seen {s s' : RJ} {v : Option Byte} (hseen : Seen Jiter.arrayStep (some 44) s s' v) :
    (∃ ws t, s.rest = ws ++ 93 :: t ∧ AWs ws ∧ v = none ∧ s'.rest = t ∧ ∃ n, s.Moved s' n) ∨
    ∃ ws ws2 c t, s.rest = ws ++ 44 :: (ws2 ++ c :: t) ∧ AWs ws ∧ AWs ws2 ∧ isWs c = false ∧ c ≠ 93 ∧ v = some c ∧
      s'.rest = c :: t ∧ ∃ n, s.Moved s' n := by
  obtain ⟨z, d, n, hz, ⟨u, rfl⟩, hd, hm⟩ := hseen
  rcases arrayStep_ok hd with ⟨w, r, rfl, hw, rfl, rfl⟩ | ⟨w, w2, c, r, rfl, hw, hw2, hc, h93, rfl, rfl⟩
  · left
    rcases hz with ⟨ws, hws, e⟩ | ⟨t, ws, ws2, z', ht, hws, hws2, e, ez⟩
    · exact ⟨ws ++ w, r ++ u, by rw [e]; simp, hws.append (.of_ws hw), rfl,
        rest_after (a := ws ++ w ++ [93]) hm (by rw [e]; simp) (by rw [e]; simp <;> omega), _, hm⟩
    · exfalso
      simp only [Option.some.injEq] at ht
      subst ht
      cases w with
      | nil => simp only [List.nil_append, List.cons_append, List.cons.injEq] at ez; exact absurd ez.1 (by decide)
      | cons a w =>
        simp only [List.cons_append, List.cons.injEq] at ez
        have := hw a (by simp)
        rw [ez.1] at this
        exact absurd this (by decide)
  · right
    rcases hz with ⟨ws, hws, e⟩ | ⟨t, ws, ws2, z', ht, hws, hws2, e, ez⟩
    · exact ⟨ws ++ w, w2, c, r ++ u, by rw [e]; simp, hws.append (.of_ws hw), .of_ws hw2, hc, h93, rfl,
        rest_after (a := ws ++ w ++ 44 :: w2) hm (by rw [e]; simp) (by rw [e]; simp <;> omega), _, hm⟩
    · simp only [Option.some.injEq] at ht
      subst ht
      cases w with
      | nil =>
        simp only [List.nil_append, List.append_assoc, List.cons_append, List.cons.injEq, true_and] at ez
        subst ez
        exact ⟨ws, ws2 ++ w2, c, r ++ u, by rw [e]; simp, hws, hws2.append (.of_ws hw2), hc, h93, rfl,
          rest_after (a := ws ++ 44 :: (ws2 ++ w2)) hm (by rw [e]; simp) (by rw [e]; simp <;> omega), _, hm⟩
      | cons a w =>
        exfalso
        simp only [List.cons_append, List.cons.injEq] at ez
        have := hw a (by simp)
        rw [ez.1] at this
        exact absurd this (by decide)

/-- An `Ok` of `array_step`. -/
theorem RJ.arrayStep_text {s s' : RJ} {fuel : Nat} {v : Option Byte} (h : s.Sync) (hl : 1 < s.b.buf.length) (hf : enoughFuel s fuel)
    (hcalm : Calm Jiter.arrayStep s.rest) (hok : s.arrayStep fuel = (s', .ok v)) :
    (∃ ws t, s.rest = ws ++ 93 :: t ∧ AWs ws ∧ v = none ∧ s'.rest = t ∧ ∃ n, s.Moved s' n) ∨
    ∃ ws ws2 c t, s.rest = ws ++ 44 :: (ws2 ++ c :: t) ∧ AWs ws ∧ AWs ws2 ∧ isWs c = false ∧ c ≠ 93 ∧ v = some c ∧
      s'.rest = c :: t ∧ ∃ n, s.Moved s' n := by
  exact RJ.arrayStep_seen (loop_calm arrayStep_jsound h hl hf hcalm hok)

/-! ## Objects -/

/-- A key on a beginning of the text it stands in. -/
theorem objectKey_cut {known : JFn Bytes} (hk : PrefixFn known) {T t : Bytes} {N : Nat} {key : Bytes}
    (ho : objectKey known (34 :: T) = (N, .ok key)) (ht : t <+: T) :
    objectKey known (34 :: t) = (N, .ok key) ∧ N ≤ t.length + 1 ∨
    ∃ m e, objectKey known (34 :: t) = (m, .error e) ∧ (m = 0 ∨ t.length + 1 ≤ m) := by
  obtain ⟨_, _, o3, o4⟩ := objectKey_prefix hk ho
  obtain ⟨u, rfl⟩ := ht
  have e : (34 :: (t ++ u)).take (t.length + 1) = 34 :: t := by rw [List.take_succ_cons, List.take_left]
  by_cases h : N ≤ t.length + 1
  · have := o3 _ h
    rw [e] at this
    exact .inl ⟨this, h⟩
  · obtain ⟨m, er, h1, _, h3⟩ := o4 (t.length + 1) (by omega)
    rw [e] at h1
    exact .inr ⟨m, er, h1, h3⟩

theorem nextObject_notBrace (known : JFn Bytes) {c : Byte} (hc : isWs c = false) (h : c ≠ 123) (t : Bytes) :
    ∀ m w, Jiter.nextObject known (c :: t) ≠ (m, .ok w) := by
  intro m w hx
  obtain ⟨ws, c', t', g, m', e, hw, hc', hsel, _, _⟩ := (nextObject_next known).ok hx
  cases ws with
  | nil =>
    simp only [List.nil_append, List.cons.injEq] at e
    rw [← e.1] at hsel
    simp [h] at hsel
  | cons a ws =>
    simp only [List.cons_append, List.cons.injEq] at e
    have := hw a (by simp)
    rw [← e.1, hc] at this
    exact absurd this (by decide)

theorem nextObject_nil (known : JFn Bytes) : ∀ m w, Jiter.nextObject known [] ≠ (m, .ok w) := by
  intro m w hx
  obtain ⟨ws, c', t', g, m', e, _⟩ := (nextObject_next known).ok hx
  simp at e

/-- `next_object` on spaces, a brace, and something. -/
theorem nextObject_brace (known : JFn Bytes) {a : Bytes} (ha : Ws a) (t : Bytes) :
    Jiter.nextObject known (a ++ 123 :: t) = match Jiter.knownObject known (123 :: t) with
      | (n, .error e) => (a.length + n, .error ⟨e.type, a.length + e.index⟩)
      | (n, .ok r) => (a.length + n, .ok r) := by
  simp only [Jiter.nextObject, peek_tok ha (show isWs 123 = false by decide), if_true, List.drop_left]
  rfl

/-- Where a `next_object` that fails leaves jiter: on a beginning of an object that is well-formed as far as its
first key. -/
theorem nextObject_calm {known : JFn Bytes} (hk : PrefixFn known) {a b T : Bytes} (ha : Ws a) (hb : Ws b)
    (hT : (∃ u, T = 125 :: u) ∨ ∃ u N key, T = 34 :: u ∧ objectKey known (34 :: u) = (N, .ok key)) :
    Calm (Jiter.nextObject known) (a ++ 123 :: (b ++ T)) := by
  rintro d ⟨v, hv⟩ n e he
  right
  rcases ws_split d with hw | ⟨ws, c, t, rfl, hw, hc⟩
  · rw [(nextObject_next known).ws _ _ _ (peek_ws hw)] at he
    simp only [Prod.mk.injEq] at he
    rw [← he.1, List.drop_length]
    exact nextObject_nil known
  · rw [List.append_assoc, List.cons_append] at hv
    obtain ⟨rfl, rfl, hv2⟩ := spaces_unique (.of_ws hw) hc ha (by decide) hv
    rw [nextObject_brace known hw] at he
    rcases ws_split t with hw2 | ⟨w2, c2, t2, rfl, hw2, hc2⟩
    · rw [knownObject_ws known 123 hw2] at he
      simp only [Prod.mk.injEq] at he
      rw [← he.1, List.drop_eq_nil_of_le (by simp <;> omega)]
      exact nextObject_nil known
    · rw [knownObject_tok known 123 hw2 hc2] at he
      rw [List.append_assoc, List.cons_append] at hv2
      rcases hT with ⟨u, rfl⟩ | ⟨u, N, key, rfl, ho⟩
      · obtain ⟨rfl, rfl, hv3⟩ := spaces_unique (.of_ws hw2) hc2 hb (by decide) hv2
        simp at he
      · obtain ⟨rfl, rfl, hv3⟩ := spaces_unique (.of_ws hw2) hc2 hb (by decide) hv2
        rw [if_pos rfl] at he
        rcases objectKey_cut hk ho ⟨v, hv3⟩ with ⟨h1, _⟩ | ⟨m, er, h1, h2⟩
        · rw [h1] at he; simp at he
        · rw [h1] at he
          simp only [Prod.mk.injEq] at he
          rcases h2 with rfl | h2
          · rw [← he.1, show ws ++ 123 :: (w2 ++ 34 :: t2) = (ws ++ 123 :: w2) ++ 34 :: t2 by simp,
              show ws.length + (1 + w2.length + 0) = (ws ++ 123 :: w2).length by simp; omega, List.drop_left]
            exact nextObject_notBrace known (by decide) (by decide) _
          · rw [← he.1, List.drop_eq_nil_of_le (by simp <;> omega)]
            exact nextObject_nil known

/-- A key that is accepted on a beginning of the text. -/
theorem objectKey_more {known : JFn Bytes} (hk : Ext known) {d t : Bytes} {n : Nat} {v : Bytes}
    (h : objectKey known d = (n, .ok v)) : objectKey known (d ++ t) = (n, .ok v) := by
  simp only [objectKey] at h
  rcases hkd : known d with ⟨m, r⟩
  rw [hkd] at h
  cases r with
  | error e => simp at h
  | ok k =>
    simp only at h
    rcases ws_split (d.drop m) with hw | ⟨ws, c, u, e, hw, hc⟩
    · rw [List.drop_eq_nil_of_le (by rw [wsLen_all hw, List.length_drop]; omega)] at h
      simp [jerr] at h
    · have hm : m ≤ d.length := by
        rcases Nat.lt_or_ge d.length m with h1 | h1
        · rw [List.drop_eq_nil_of_le (by omega)] at e; simp at e
        · exact h1
      rw [e, wsLen_cons hw hc, ← List.drop_drop, e, List.drop_left] at h
      simp only [objectKey, hk d t m k hkd]
      rw [List.drop_append_of_le_length hm, e, List.append_assoc, List.cons_append, wsLen_cons hw hc, ← List.drop_drop,
        List.drop_append_of_le_length hm, e, List.append_assoc, List.cons_append, List.drop_left]
      exact h

theorem RJ.nextObject_seen {known : JFn Bytes} (hx : Ext known) {s s' : RJ} {v : Option Bytes}
    (hseen : Seen (Jiter.nextObject known) (some 123) s s' v) :
    ∃ ws ws2 T, s.rest = ws ++ 123 :: (ws2 ++ T) ∧ AWs ws ∧ AWs ws2 ∧ (∃ n, s.Moved s' n) ∧
      (v = none ∧ T = 125 :: s'.rest ∨
        ∃ k m t, T = 34 :: t ∧ v = some k ∧ objectKey known (34 :: t) = (m, .ok k) ∧ s'.rest = T.drop m) := by
  obtain ⟨z, d, n, hz, ⟨u, rfl⟩, hd, hm⟩ := hseen
  obtain ⟨w, c, t, g, m, rfl, hw, hc, hsel, hg, rfl⟩ := (nextObject_next known).ok hd
  by_cases h123 : c = 123
  · subst h123
    simp only [if_true, Option.some.injEq] at hsel
    subst hsel
    -- the text in front of the parser, given what is behind the brace
    have key : ∀ w2 c2 t2, t = w2 ++ c2 :: t2 → Ws w2 → ∃ W W2, AWs W ∧ AWs W2 ∧ s.rest = W ++ 123 :: (W2 ++ c2 :: (t2 ++ u)) ∧
        s.rest.length - (w ++ 123 :: t ++ u).length + (w.length + w2.length) = W.length + W2.length := by
      rintro w2 c2 t2 rfl hw2
      rcases hz with ⟨ws, hws, e⟩ | ⟨q, ws, ws2, z', ht, hws, hws2, e, ez⟩
      · exact ⟨ws ++ w, w2, hws.append (.of_ws hw), .of_ws hw2, by rw [e]; simp, by rw [e]; simp <;> omega⟩
      · simp only [Option.some.injEq] at ht
        subst ht
        cases w with
        | nil =>
          simp only [List.nil_append, List.append_assoc, List.cons_append, List.cons.injEq, true_and] at ez
          subst ez
          exact ⟨ws, ws2 ++ w2, hws, hws2.append (.of_ws hw2), by rw [e]; simp, by rw [e]; simp <;> omega⟩
        | cons a w =>
          exfalso
          simp only [List.cons_append, List.cons.injEq] at ez
          have := hw a (by simp)
          rw [ez.1] at this
          exact absurd this (by decide)
    rcases knownObject_ok hg with ⟨x, w2, t2, e2, hw2, rfl, rfl⟩ | ⟨x, w2, t2, m, k, e2, hw2, rfl, ho, rfl⟩
    · simp only [List.cons.injEq] at e2
      obtain ⟨W, W2, hW, hW2, e, hlen⟩ := key w2 125 t2 e2.2 hw2
      refine ⟨W, W2, _, e, hW, hW2, ⟨_, hm⟩, .inl ⟨rfl, ?_⟩⟩
      rw [rest_after (a := W ++ 123 :: (W2 ++ [125])) (t := t2 ++ u) hm (by rw [e]; simp) (by simp at hlen ⊢; omega)]
    · simp only [List.cons.injEq] at e2
      obtain ⟨W, W2, hW, hW2, e, hlen⟩ := key w2 34 t2 e2.2 hw2
      refine ⟨W, W2, _, e, hW, hW2, ⟨_, hm⟩, .inr ⟨k, m, t2 ++ u, rfl, rfl, objectKey_more hx ho, ?_⟩⟩
      rw [hm.rest,
        show s.rest.length - (w ++ 123 :: t ++ u).length + (w.length + (1 + w2.length + m)) = (W ++ 123 :: W2).length + m by
          simp at hlen ⊢; omega, ← List.drop_drop, e,
        show W ++ 123 :: (W2 ++ 34 :: (t2 ++ u)) = (W ++ 123 :: W2) ++ 34 :: (t2 ++ u) by simp, List.drop_left]
  · simp [h123] at hsel

/-- An `Ok` of `next_object` (`next_object_bytes`). -/
theorem RJ.nextObject_text {known : JFn Bytes} (hk : PrefixFn known) (hx : Ext known) {s s' : RJ} {fuel : Nat} {v : Option Bytes}
    (h : s.Sync) (hl : 1 < s.b.buf.length) (hf : enoughFuel s fuel) (hcalm : Calm (Jiter.nextObject known) s.rest)
    (hok : s.loopUntilSuccess fuel (Jiter.nextObject known) (some 123) false = (s', .ok v)) :
    ∃ ws ws2 T, s.rest = ws ++ 123 :: (ws2 ++ T) ∧ AWs ws ∧ AWs ws2 ∧ (∃ n, s.Moved s' n) ∧
      (v = none ∧ T = 125 :: s'.rest ∨
        ∃ k m t, T = 34 :: t ∧ v = some k ∧ objectKey known (34 :: t) = (m, .ok k) ∧ s'.rest = T.drop m) := by
  exact RJ.nextObject_seen hx (loop_calm (nextObject_jsound hk) h hl hf hcalm hok)

theorem nextKey_nil (known : JFn Bytes) : ∀ m w, Jiter.nextKey known [] ≠ (m, .ok w) := by
  intro m w hx
  rw [nextKey_ws known Ws.nil] at hx
  simp at hx

theorem nextKey_calm_end (known : JFn Bytes) {a u : Bytes} (ha : Ws a) : Calm (Jiter.nextKey known) (a ++ 125 :: u) := by
  rintro d ⟨v, hv⟩ n e he
  right
  rcases ws_split d with hw | ⟨ws, c, t, rfl, hw, hc⟩
  · rw [nextKey_ws known hw] at he
    simp only [Prod.mk.injEq] at he
    rw [← he.1, List.drop_length]
    exact nextKey_nil known
  · rw [List.append_assoc, List.cons_append] at hv
    obtain ⟨rfl, rfl, hv⟩ := spaces_unique (.of_ws hw) hc ha (by decide) hv
    rw [nextKey_tok known hw hc] at he
    simp at he

theorem nextKey_calm_comma {known : JFn Bytes} (hk : PrefixFn known) {a b u : Bytes} {N : Nat} {key : Bytes} (ha : Ws a) (hb : Ws b)
    (ho : objectKey known (34 :: u) = (N, .ok key)) : Calm (Jiter.nextKey known) (a ++ 44 :: (b ++ 34 :: u)) := by
  rintro d ⟨v, hv⟩ n e he
  right
  rcases ws_split d with hw | ⟨ws, c, t, rfl, hw, hc⟩
  · rw [nextKey_ws known hw] at he
    simp only [Prod.mk.injEq] at he
    rw [← he.1, List.drop_length]
    exact nextKey_nil known
  · rw [List.append_assoc, List.cons_append] at hv
    obtain ⟨rfl, rfl, hv2⟩ := spaces_unique (.of_ws hw) hc ha (by decide) hv
    rw [nextKey_tok known hw hc, if_pos rfl] at he
    rcases ws_split t with hw2 | ⟨w2, c2, t2, rfl, hw2, hc2⟩
    · rw [wsLen_all hw2, List.drop_length] at he
      simp only [jerr, Prod.mk.injEq] at he
      rw [← he.1, List.drop_eq_nil_of_le (by simp <;> omega)]
      exact nextKey_nil known
    · rw [List.append_assoc, List.cons_append] at hv2
      obtain ⟨rfl, rfl, hv3⟩ := spaces_unique (.of_ws hw2) hc2 hb (by decide) hv2
      rw [wsLen_cons hw2 hc2, List.drop_left] at he
      simp only [if_true] at he
      rcases objectKey_cut hk ho ⟨v, hv3⟩ with ⟨h1, _⟩ | ⟨m, er, h1, h2⟩
      · rw [h1] at he; simp at he
      · rw [h1] at he
        simp only [Prod.mk.injEq] at he
        rcases h2 with rfl | h2
        · rw [← he.1, show ws ++ 44 :: (w2 ++ 34 :: t2) = (ws ++ 44 :: w2) ++ 34 :: t2 by simp,
            show ws.length + 1 + w2.length + 0 = (ws ++ 44 :: w2).length by simp; omega, List.drop_left]
          intro m w hx
          have h1 := nextKey_tok known Ws.nil (c := 34) (by decide) t2
          simp only [List.nil_append, List.length_nil] at h1
          rw [if_neg (by decide), if_neg (by decide)] at h1
          rw [h1] at hx
          simp [jerr] at hx
        · rw [← he.1, List.drop_eq_nil_of_le (by simp <;> omega)]
          exact nextKey_nil known

theorem RJ.nextKey_seen {known : JFn Bytes} (hx : Ext known) {s s' : RJ} {v : Option Bytes}
    (hseen : Seen (Jiter.nextKey known) (some 44) s s' v) :
    (∃ ws t, s.rest = ws ++ 125 :: t ∧ AWs ws ∧ v = none ∧ s'.rest = t ∧ ∃ n, s.Moved s' n) ∨
    ∃ ws ws2 t k m, s.rest = ws ++ 44 :: (ws2 ++ 34 :: t) ∧ AWs ws ∧ AWs ws2 ∧ v = some k ∧
      objectKey known (34 :: t) = (m, .ok k) ∧ s'.rest = (34 :: t).drop m ∧ ∃ n, s.Moved s' n := by
  obtain ⟨z, d, n, hz, ⟨u, rfl⟩, hd, hm⟩ := hseen
  rcases nextKey_ok hd with ⟨w, r, rfl, hw, rfl, rfl⟩ | ⟨w, w2, r, m, k, rfl, hw, hw2, rfl, ho, rfl⟩
  · left
    rcases hz with ⟨ws, hws, e⟩ | ⟨t, ws, ws2, z', ht, hws, hws2, e, ez⟩
    · exact ⟨ws ++ w, r ++ u, by rw [e]; simp, hws.append (.of_ws hw), rfl,
        rest_after (a := ws ++ w ++ [125]) hm (by rw [e]; simp) (by rw [e]; simp <;> omega), _, hm⟩
    · exfalso
      simp only [Option.some.injEq] at ht
      subst ht
      cases w with
      | nil => simp only [List.nil_append, List.cons_append, List.cons.injEq] at ez; exact absurd ez.1 (by decide)
      | cons a w =>
        simp only [List.cons_append, List.cons.injEq] at ez
        have := hw a (by simp)
        rw [ez.1] at this
        exact absurd this (by decide)
  · right
    have fin : ∀ W W2, AWs W → AWs W2 → s.rest = W ++ 44 :: (W2 ++ 34 :: (r ++ u)) →
        s.rest.length - (w ++ 44 :: (w2 ++ 34 :: r) ++ u).length + (w.length + w2.length) = W.length + W2.length →
        ∃ ws ws2 t k' m, s.rest = ws ++ 44 :: (ws2 ++ 34 :: t) ∧ AWs ws ∧ AWs ws2 ∧ some k = some k' ∧
          objectKey known (34 :: t) = (m, .ok k') ∧ s'.rest = (34 :: t).drop m ∧ ∃ n, s.Moved s' n := by
      intro W W2 hW hW2 e hlen
      refine ⟨W, W2, r ++ u, k, m, e, hW, hW2, rfl, objectKey_more hx ho, ?_, _, hm⟩
      rw [hm.rest,
        show s.rest.length - (w ++ 44 :: (w2 ++ 34 :: r) ++ u).length + (w.length + (1 + w2.length + m)) = (W ++ 44 :: W2).length + m by
          simp at hlen ⊢; omega, ← List.drop_drop, e,
        show W ++ 44 :: (W2 ++ 34 :: (r ++ u)) = (W ++ 44 :: W2) ++ 34 :: (r ++ u) by simp, List.drop_left]
    rcases hz with ⟨ws, hws, e⟩ | ⟨t, ws, ws2, z', ht, hws, hws2, e, ez⟩
    · exact fin (ws ++ w) w2 (hws.append (.of_ws hw)) (.of_ws hw2) (by rw [e]; simp) (by rw [e]; simp <;> omega)
    · simp only [Option.some.injEq] at ht
      subst ht
      cases w with
      | nil =>
        simp only [List.nil_append, List.append_assoc, List.cons_append, List.cons.injEq, true_and] at ez
        subst ez
        exact fin ws (ws2 ++ w2) hws (hws2.append (.of_ws hw2)) (by rw [e]; simp) (by rw [e]; simp <;> omega)
      | cons a w =>
        exfalso
        simp only [List.cons_append, List.cons.injEq] at ez
        have := hw a (by simp)
        rw [ez.1] at this
        exact absurd this (by decide)

/-- An `Ok` of `next_key` (`next_key_bytes`). -/
theorem RJ.nextKey_text {known : JFn Bytes} (hk : PrefixFn known) (hx : Ext known) {s s' : RJ} {fuel : Nat} {v : Option Bytes}
    (h : s.Sync) (hl : 1 < s.b.buf.length) (hf : enoughFuel s fuel) (hcalm : Calm (Jiter.nextKey known) s.rest)
    (hok : s.loopUntilSuccess fuel (Jiter.nextKey known) (some 44) false = (s', .ok v)) :
    (∃ ws t, s.rest = ws ++ 125 :: t ∧ AWs ws ∧ v = none ∧ s'.rest = t ∧ ∃ n, s.Moved s' n) ∨
    ∃ ws ws2 t k m, s.rest = ws ++ 44 :: (ws2 ++ 34 :: t) ∧ AWs ws ∧ AWs ws2 ∧ v = some k ∧
      objectKey known (34 :: t) = (m, .ok k) ∧ s'.rest = (34 :: t).drop m ∧ ∃ n, s.Moved s' n := by
  exact RJ.nextKey_seen hx (loop_calm (nextKey_jsound hk) h hl hf hcalm hok)

end Verif.RJiter
