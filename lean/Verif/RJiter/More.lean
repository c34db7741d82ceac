import Verif.RJiter.Late
import Verif.RJiter.ModelValue

/-!
# A reader that goes on where another one ends

`more R s` is the parser `s` with a reader that goes on with `R` where the reader of `s` ends. Up to that place the two do the same.
-/

namespace Verif.RJiter

open Buffer

/-- The reader goes on with `R` where it would end. -/
def Buffer.more (R : Reader) (b : Buffer) : Buffer := { b with reader := b.reader ++ R }

/-- The reader goes on with `R` where it would end. -/
def RJ.more (R : Reader) (s : RJ) : RJ := { s with b := s.b.more R }

/-- The results of a function of the buffer with a reader that ends, and with one that goes on: both are the same, or the one has met the end. -/
def Meets {α : Type} (R : Reader) (E : Prop) (x y : Buffer × Res α) : Prop :=
  y = (x.1.more R, x.2) ∨ (x.1.reader = [] ∧ E)

theorem readMore_meets (R : Reader) (b : Buffer) : Meets R (b.readMore = (b, .ok 0)) b.readMore (b.more R).readMore := by
  by_cases hb : b.buf.length < b.nBytes
  · left
    unfold Buffer.readMore
    rw [if_pos hb, if_pos (by exact hb)]
  · by_cases h0 : b.buf.length - b.nBytes = 0
    · left
      unfold Buffer.readMore
      rw [if_neg hb, if_neg (by exact hb)]
      simp only [Buffer.more, Reader.read, h0, if_true]
    · cases hr : b.reader with
      | nil =>
        right
        have he := b.readMore_end hr (by omega)
        exact ⟨by rw [he]; exact hr, he⟩
      | cons e r =>
        left
        unfold Buffer.readMore
        rw [if_neg hb, if_neg (by exact hb)]
        simp only [Buffer.more, hr, Reader.read, h0, if_false, List.cons_append]
        cases e with
        | fail q => rfl
        | data c cs =>
          simp only
          rcases cs.drop (b.buf.length - b.nBytes - 1) with _ | ⟨d, ds⟩ <;> rfl

theorem shift_more (R : Reader) (b : Buffer) (t f : Nat) : (b.more R).shift t f = (b.shift t f).more R := by
  unfold Buffer.shift Buffer.more
  simp only
  split <;> rfl

theorem scan_more (R : Reader) (b : Buffer) (p : Byte → Bool) (i : Nat) : (b.more R).scan p i = b.scan p i := rfl

theorem collectWhileLoop_meets (R : Reader) (p : Byte → Bool) (st : Nat) (al : Bool) : ∀ (fuel : Nat) (b : Buffer) (i c : Nat) (sh : Bool),
    Meets R (∃ c', (collectWhileLoop p st al fuel b i c sh).2 = .ok (c', (collectWhileLoop p st al fuel b i c sh).1.nBytes))
      (collectWhileLoop p st al fuel b i c sh) (collectWhileLoop p st al fuel (b.more R) i c sh) := by
  intro fuel
  induction fuel with
  | zero => intro b i c sh; exact .inl rfl
  | succ fuel ih =>
    intro b i c sh
    simp only [collectWhileLoop, scan_more]
    have e1 : (b.more R).nBytes = b.nBytes := rfl
    have e2 : (b.more R).buf = b.buf := rfl
    have e3 : (b.more R).nShifted = b.nShifted := rfl
    rw [e1, e2, e3, shift_more]
    by_cases c1 : b.scan p i < b.nBytes
    · simp only [c1, if_true]; exact .inl rfl
    · simp only [c1, if_false]
      by_cases c2 : b.nBytes ≥ b.buf.length
      · simp only [c2, if_true]
        by_cases c3 : (!al || sh || st == 0) = true
        · simp only [c3, if_true]; exact .inl rfl
        · simp only [c3]
          rcases readMore_meets R (b.shift 0 st) with h | ⟨h1, h2⟩
          · rw [h]
            rcases (b.shift 0 st).readMore with ⟨b2, n | e | _ | _⟩
            · simp only
              by_cases c4 : n = 0
              · simp only [c4, if_true]; exact .inl rfl
              · simp only [c4, if_false]; exact ih _ _ _ _
            all_goals exact .inl rfl
          · rw [h2]
            rw [h2] at h1
            exact .inr ⟨h1, _, rfl⟩
      · simp only [c2, if_false]
        rcases readMore_meets R b with h | ⟨h1, h2⟩
        · rw [h]
          rcases b.readMore with ⟨b2, n | e | _ | _⟩
          · simp only
            by_cases c4 : n = 0
            · simp only [c4, if_true]; exact .inl rfl
            · simp only [c4, if_false]; exact ih _ _ _ _
          all_goals exact .inl rfl
        · rw [h2]
          rw [h2] at h1
          exact .inr ⟨h1, _, rfl⟩

theorem collectWhile_meets (R : Reader) (fuel : Nat) (b : Buffer) (p : Byte → Bool) (st : Nat) (al : Bool) :
    Meets R (∃ c', (b.collectWhile fuel p st al).2 = .ok (c', (b.collectWhile fuel p st al).1.nBytes))
      (b.collectWhile fuel p st al) ((b.more R).collectWhile fuel p st al) := collectWhileLoop_meets _ _ _ _ _ _ _ _ _
theorem skipSpacesLoop_meets (R : Reader) (fuel0 pos : Nat) : ∀ (fuel : Nat) (b : Buffer),
    Meets R ((skipSpacesLoop fuel0 pos fuel b).2 = .ok () ∧ (skipSpacesLoop fuel0 pos fuel b).1.nBytes ≤ pos)
      (skipSpacesLoop fuel0 pos fuel b) (skipSpacesLoop fuel0 pos fuel (b.more R)) := by
  intro fuel
  induction fuel with
  | zero => intro b; exact .inl rfl
  | succ fuel ih =>
    intro b
    simp only [skipSpacesLoop]
    rcases collectWhile_meets R fuel0 b isAsciiWs pos false with h | ⟨h1, c, h2⟩
    · rw [h]
      rcases b.collectWhile fuel0 isAsciiWs pos false with ⟨b1, ⟨c, e⟩ | e | _ | _⟩
      · left
        simp only
        split
        · rw [shift_more]
        · rfl
      · simp only
        split
        · rw [shift_more]; exact ih _
        · exact .inl rfl
      all_goals exact .inl rfl
    · rcases hx : b.collectWhile fuel0 isAsciiWs pos false with ⟨b1, r⟩
      rw [hx] at h1 h2
      simp only at h1 h2
      subst h2
      right
      simp only
      refine ⟨?_, trivial, shift_all_nBytes b1 pos⟩
      · split
        · rw [shift_reader]; exact h1
        · exact h1

theorem skipSpaces_meets (R : Reader) (fuel : Nat) (b : Buffer) (pos : Nat) :
    Meets R ((b.skipSpaces fuel pos).2 = .ok () ∧ (b.skipSpaces fuel pos).1.nBytes ≤ pos) (b.skipSpaces fuel pos) ((b.more R).skipSpaces fuel pos) :=
  skipSpacesLoop_meets _ _ _ _ _

namespace RJ

/-- `Meets` for the functions of the parser. -/
def Meets {α : Type} (R : Reader) (E : Prop) (x y : RJ × Res α) : Prop :=
  y = (x.1.more R, x.2) ∨ (x.1.b.reader = [] ∧ E)

theorem isChanged_more (R : Reader) (b c : Buffer) : isChanged (b.more R) (c.more R) = isChanged b c := rfl

theorem skipSpacesFeeding_meets (R : Reader) (fuel : Nat) (s : RJ) (jp : Nat) (tok : Option Byte) (hs : s.jlen = s.b.nBytes)
    (hok : ∀ b1 : Buffer, ((if jp > 0 then s.b.shift 0 jp else s.b).skipSpaces fuel 0) = (b1, .ok ()) → b1.nBytes ≤ b1.buf.length) :
    Meets R ((s.skipSpacesFeeding fuel jp tok).2 = .ok () ∧ Bare tok (s.skipSpacesFeeding fuel jp tok).1)
      (s.skipSpacesFeeding fuel jp tok) ((s.more R).skipSpacesFeeding fuel jp tok) := by
  have hd : ∀ b : Buffer, (if isChanged (s.more R).b (b.more R) then (({ s.more R with b := b.more R } : RJ).refresh, (Res.ok () : Res Unit))
      else ({ s.more R with b := b.more R }, .ok ())) = ((if isChanged s.b b then (({ s with b := b } : RJ).refresh, (Res.ok () : Res Unit))
      else ({ s with b := b }, .ok ())).1.more R, (if isChanged s.b b then (({ s with b := b } : RJ).refresh, (Res.ok () : Res Unit))
      else ({ s with b := b }, .ok ())).2) := by
    intro b
    rw [show (s.more R).b = s.b.more R from rfl, isChanged_more]
    split <;> rfl
  have hlen : ∀ b : Buffer, (if isChanged s.b b then (({ s with b := b } : RJ).refresh, (Res.ok () : Res Unit))
      else ({ s with b := b }, .ok ())).1.jlen = b.nBytes := by
    intro b
    split
    · rfl
    · rename_i h
      simp only [isChanged, Bool.or_eq_true, bne_iff_ne, ne_eq, not_or, Decidable.not_not] at h
      show s.jlen = b.nBytes
      rw [hs, h.2]
  have hbb : ∀ b : Buffer, (if isChanged s.b b then (({ s with b := b } : RJ).refresh, (Res.ok () : Res Unit))
      else ({ s with b := b }, .ok ())).1.b = b ∧ (if isChanged s.b b then (({ s with b := b } : RJ).refresh, (Res.ok () : Res Unit))
      else ({ s with b := b }, .ok ())).2 = .ok () := by
    intro b; split <;> exact ⟨rfl, rfl⟩
  -- the end: nothing is left
  have hnil : ∀ (b : Buffer) (y : RJ × Res Unit), b.reader = [] → b.nBytes = 0 →
      Meets R ((if isChanged s.b b then (({ s with b := b } : RJ).refresh, (Res.ok () : Res Unit)) else ({ s with b := b }, .ok ())).2 = .ok () ∧
        Bare tok (if isChanged s.b b then (({ s with b := b } : RJ).refresh, (Res.ok () : Res Unit)) else ({ s with b := b }, .ok ())).1)
      (if isChanged s.b b then (({ s with b := b } : RJ).refresh, (Res.ok () : Res Unit)) else ({ s with b := b }, .ok ()))
      y := by
    intro b y hr h0
    exact .inr ⟨by rw [(hbb b).1]; exact hr, (hbb b).2, bare_nil (by rw [hlen b]; exact h0)⟩
  have h0 : (if jp > 0 then (s.more R).b.shift 0 jp else (s.more R).b) = (if jp > 0 then s.b.shift 0 jp else s.b).more R := by
    split
    · exact shift_more _ _ _ _
    · rfl
  simp only [skipSpacesFeeding, h0]
  rcases skipSpaces_meets R fuel (if jp > 0 then s.b.shift 0 jp else s.b) 0 with h | ⟨h1, h2, h3⟩
  · rw [h]
    rcases hx : (if jp > 0 then s.b.shift 0 jp else s.b).skipSpaces fuel 0 with ⟨b1, _ | e | _ | _⟩
    · have hok1 := hok b1 hx
      simp only
      cases tok with
      | none => exact .inl (hd b1)
      | some t =>
        simp only
        have hp1 : Verif.RJiter.Meets R (b1.nBytes ≤ 0 ∧ b1.readMore = (b1, .ok 0)) (if b1.nBytes ≤ 0 then b1.readMore else (b1, .ok 0))
            (if (b1.more R).nBytes ≤ 0 then (b1.more R).readMore else (b1.more R, .ok 0)) := by
          rw [show (b1.more R).nBytes = b1.nBytes from rfl]
          split
          · rename_i hz
            rcases readMore_meets R b1 with h | ⟨h2, h3⟩
            · exact .inl h
            · exact .inr ⟨h2, hz, h3⟩
          · exact .inl rfl
        rcases hp1 with h | ⟨h1, h2, h3⟩
        · rw [h]
          rcases (if b1.nBytes ≤ 0 then b1.readMore else (b1, .ok 0)) with ⟨b2, n | e | _ | _⟩
          · simp only
            rw [show (b2.more R).nBytes = b2.nBytes from rfl, show (b2.more R).buf = b2.buf from rfl]
            split
            · rename_i hc
              rcases skipSpaces_meets R fuel b2 1 with h | ⟨h1, h2, h3⟩
              · rw [h]
                rcases b2.skipSpaces fuel 1 with ⟨b3, _ | e | _ | _⟩
                · exact .inl (hd b3)
                all_goals exact .inl rfl
              · have h4 := skipSpacesLoop_head fuel 1 (by omega) fuel b2 hc.1
                rcases hx : b2.skipSpaces fuel 1 with ⟨b3, r⟩
                rw [hx] at h1 h2 h3
                rw [show skipSpacesLoop fuel 1 fuel b2 = b2.skipSpaces fuel 1 from rfl, hx] at h4
                simp only at h1 h2 h3 h4
                subst h2
                right
                refine ⟨by rw [(hbb b3).1]; exact h1, (hbb b3).2, ?_⟩
                have h5 : b3.buf.head? = some t := by
                  rw [h4.2]
                  have := hc.2
                  cases hbuf : b2.buf with
                  | nil => rw [hbuf] at this; simp at this
                  | cons c l => rw [hbuf] at this; simpa using this
                have h6 := jdata_short (s := (if isChanged s.b b3 then (({ s with b := b3 } : RJ).refresh, (Res.ok () : Res Unit))
                  else ({ s with b := b3 }, .ok ())).1) (t := t) (by rw [hlen b3]; exact h3) (by rw [(hbb b3).1]; exact h5)
                rcases h6 with h6 | h6
                · exact .inl h6
                · exact .inr ⟨t, rfl, h6⟩
            · exact .inl (hd b2)
          all_goals exact .inl rfl
        · rw [if_pos h2, h3]
          rw [if_pos h2, h3] at h1
          simp only at h1
          simp only
          rw [if_neg (by omega)]
          exact hnil _ _ h1 (by omega)
    all_goals exact .inl rfl
  · rcases hx : (if jp > 0 then s.b.shift 0 jp else s.b).skipSpaces fuel 0 with ⟨b1, r⟩
    rw [hx] at h1 h2 h3
    simp only at h1 h2 h3
    subst h2
    have hok1 := hok b1 hx
    cases tok with
    | none => exact hnil _ _ h1 (by omega)
    | some t =>
      simp only
      rw [if_pos (by omega), b1.readMore_end h1 hok1]
      simp only
      rw [if_neg (by omega)]
      exact hnil _ _ h1 (by omega)

theorem retryLoop_meets {α : Type} (R : Reader) (f : JFn α) (eager : Bool) : ∀ (fuel : Nat) (s : RJ),
    Meets R (Ended eager (retryLoop f eager fuel s)) (retryLoop f eager fuel s) (retryLoop f eager fuel (s.more R)) := by
  intro fuel
  induction fuel with
  | zero => intro s; exact .inl rfl
  | succ fuel ih =>
    intro s
    simp only [retryLoop, call]
    rw [show (s.more R).jdata = s.jdata from rfl, show (s.more R).jidx = s.jidx from rfl]
    rcases f s.jdata with ⟨n, v | e⟩
    · simp only
      split
      · exact .inl rfl
      · rw [show (s.more R).b = s.b.more R from rfl]
        rcases readMore_meets R s.b with h | ⟨h1, h2⟩
        · rw [h]
          rcases s.b.readMore with ⟨b2, m | er | _ | _⟩
          · simp only
            split
            · exact .inl rfl
            · exact ih _
          all_goals exact .inl rfl
        · rw [h2]
          rw [h2] at h1
          simp only at h1
          exact .inr ⟨h1, .inl (by simp)⟩
    · simp only
      rw [show (({ s.more R with jidx := s.jidx + n } : RJ).reallyOk eager) = (({ s with jidx := s.jidx + n } : RJ).reallyOk eager) from rfl]
      split
      · exact .inl rfl
      · rename_i hro
        rw [show (s.more R).b = s.b.more R from rfl]
        rcases readMore_meets R s.b with h | ⟨h1, h2⟩
        · rw [h]
          rcases s.b.readMore with ⟨b2, m | er | _ | _⟩
          · simp only
            split
            · exact .inl rfl
            · exact ih _
          all_goals exact .inl rfl
        · rw [h2]
          rw [h2] at h1
          simp only at h1
          refine .inr ⟨h1, .inr ?_⟩
          simp only [reallyOk, Bool.or_eq_true, Bool.not_eq_true', decide_eq_true_eq, not_or, Bool.not_eq_false] at hro
          exact ⟨hro.1, Nat.le_of_not_lt hro.2⟩

theorem loopUntilSuccess_meets {α : Type} (R : Reader) (fuel : Nat) {s : RJ} (hs : s.Sync) {f : JFn α} {tok : Option Byte} {eager : Bool} (hf : Needs f tok) :
    Meets R (Ended eager (s.loopUntilSuccess fuel f tok eager)) (s.loopUntilSuccess fuel f tok eager)
      ((s.more R).loopUntilSuccess fuel f tok eager) := by
  have key : ∀ n, Meets R (Ended eager (match ({ s with jidx := n } : RJ).skipSpacesFeeding fuel s.jidx tok with
      | (s2, .ok ()) => retryLoop f eager fuel s2
      | (s2, .err e) => (s2, .err e)
      | (s2, .panic) => (s2, .panic)
      | (s2, .diverge) => (s2, .diverge)))
      (match ({ s with jidx := n } : RJ).skipSpacesFeeding fuel s.jidx tok with
      | (s2, .ok ()) => retryLoop f eager fuel s2
      | (s2, .err e) => (s2, .err e)
      | (s2, .panic) => (s2, .panic)
      | (s2, .diverge) => (s2, .diverge))
      (match ({ s.more R with jidx := n } : RJ).skipSpacesFeeding fuel s.jidx tok with
      | (s2, .ok ()) => retryLoop f eager fuel s2
      | (s2, .err e) => (s2, .err e)
      | (s2, .panic) => (s2, .panic)
      | (s2, .diverge) => (s2, .diverge)) := by
    intro n
    have hr := skipSpacesFeeding_reach fuel { s with jidx := n } s.jidx tok
    have hp := skipSpacesFeeding_meets R fuel { s with jidx := n } s.jidx tok hs.len (by
      intro b1 h
      have h0 : Reach s.b (if s.jidx > 0 then s.b.shift 0 s.jidx else s.b) := by
        split
        · exact .shift _ _ _
        · exact .refl _
      have h1 := h0.trans (skipSpaces_reach fuel _ 0)
      rw [h] at h1
      exact h1.fits hs.ok)
    rw [show ({ s.more R with jidx := n } : RJ) = ({ s with jidx := n } : RJ).more R from rfl]
    rcases hp with h | ⟨h1, h2, h3⟩
    · rw [h]
      rcases ({ s with jidx := n } : RJ).skipSpacesFeeding fuel s.jidx tok with ⟨s2, _ | e | _ | _⟩
      · exact retryLoop_meets R f eager fuel s2
      all_goals exact .inl rfl
    · rcases hx : ({ s with jidx := n } : RJ).skipSpacesFeeding fuel s.jidx tok with ⟨s2, r⟩
      rw [hx] at h1 h2 h3 hr
      simp only at h1 h2 h3 hr
      subst h2
      simp only
      have hfit := hr.fits hs.ok
      exact .inr ⟨retryLoop_still h1 hfit fuel, .inl (retryLoop_bare hf h3 h1 hfit fuel)⟩
  simp only [loopUntilSuccess, call]
  rw [show (s.more R).jdata = s.jdata from rfl, show (s.more R).jidx = s.jidx from rfl]
  rcases f s.jdata with ⟨n, e | v⟩
  · exact key _
  · simp only
    rw [show (({ s.more R with jidx := s.jidx + n } : RJ).reallyOk eager) = (({ s with jidx := s.jidx + n } : RJ).reallyOk eager) from rfl]
    by_cases c : (({ s with jidx := s.jidx + n } : RJ).reallyOk eager) = true
    · simp only [c, if_true]; exact .inl rfl
    · simp only [c]; exact key _

/-! ### The calls -/

/-- A call that is done before the end: with more input it does the same. -/
def Stays {α : Type} (R : Reader) (x y : RJ × Res α) : Prop := ∀ s' v, x = (s', .ok v) → y = (s'.more R, .ok v)

/-- A call that is done before the end unless its value is the end of the input. -/
def StaysIn {α : Type} (R : Reader) (x y : RJ × Res α) : Prop := ∀ s' v, x = (s', .ok v) → s'.rest ≠ [] → y = (s'.more R, .ok v)

theorem Meets.stays {α : Type} {R : Reader} {x y : RJ × Res α} (h : Meets R (Ended false x) x y) : Stays R x y := by
  intro s' v hx
  rcases h with h | ⟨_, h2 | h2⟩
  · rw [h, hx]
  · exact absurd (by rw [hx]) (h2 v)
  · cases h2.1

theorem Meets.staysIn {α : Type} {R : Reader} {x y : RJ × Res α} (h : Meets R (Ended true x) x y) : StaysIn R x y := by
  intro s' v hx hne
  rcases h with h | ⟨h1, h2 | h2⟩
  · rw [h, hx]
  · exact absurd (by rw [hx]) (h2 v)
  · rw [hx] at h1 h2
    refine absurd ?_ hne
    have h3 := h2.2
    simp only at h1 h3
    rw [RJ.rest, Buffer.rest, h1, List.drop_eq_nil_of_le (by simp only [Buffer.valid, List.length_take]; omega)]
    rfl

theorem needs_none {α : Type} {f : JFn α} (h : ∃ n e, f [] = (n, .error e)) : Needs f none := ⟨h, nofun⟩

theorem needs_some {α : Type} {f : JFn α} {t : Byte} (h : ∃ n e, f [] = (n, .error e)) (ht : ∃ n e, f [t] = (n, .error e)) : Needs f (some t) := by
  refine ⟨h, ?_⟩
  intro t' e
  simp only [Option.some.injEq] at e
  subst e
  exact ht

theorem knownNum_nil {num : JFn Bytes} (h : ∃ n e, num [] = (n, .error e)) (pk : Byte) : ∃ n e, Jiter.knownNum num pk [] = (n, .error e) := by
  unfold Jiter.knownNum
  split
  · exact h
  · exact ⟨_, _, rfl⟩

theorem knownWhole_nil {α : Type} {D : Jiter.Decoders} {B : Build α} (hs : ∃ n e, D.str [] = (n, .error e)) (hn : ∃ n e, D.num [] = (n, .error e))
    (pk : Byte) : ∃ n e, Jiter.knownWhole D B pk [] = (n, .error e) := by
  obtain ⟨n1, e1, hs⟩ := hs
  obtain ⟨n2, e2, hn⟩ := hn
  unfold Jiter.knownWhole
  simp only [List.length_nil, Nat.mul_zero, Jiter.value]
  split
  · exact ⟨_, _, rfl⟩
  · split
    · obtain ⟨n3, e3, hb⟩ := (knownBool_needs pk).1
      simp only [JFn.map, JFn.bind, hb]; exact ⟨_, _, rfl⟩
    · split
      · simp only [JFn.map, JFn.bind, hs]; exact ⟨_, _, rfl⟩
      · split
        · exact ⟨_, _, rfl⟩
        · split
          · exact ⟨_, _, rfl⟩
          · split
            · simp only [JFn.map, JFn.bind, hn]; exact ⟨_, _, rfl⟩
            · exact ⟨_, _, rfl⟩

/-- `Meets` for the functions for long strings. -/
def MeetsW (R : Reader) (x y : (RJ × Writer) × Res Unit) : Prop :=
  y = ((x.1.1.more R, x.1.2), x.2) ∨ ∀ v, x.2 ≠ .ok v

theorem handleLong_meets (R : Reader) (kd : Kind) : ∀ (fuel : Nat) (s : RJ) (w : Writer), MeetsW R (s.handleLong kd fuel w) ((s.more R).handleLong kd fuel w) := by
  intro fuel
  induction fuel with
  | zero => intro s w; exact .inl rfl
  | succ fuel ih =>
    intro s w
    simp only [handleLong, call]
    rw [show (s.more R).jdata = s.jdata from rfl, show (s.more R).jidx = s.jidx from rfl]
    rcases kd.parser s.jdata with ⟨n, e | v⟩
    · simp only
      by_cases c1 : (!canRetry e.type) = true
      · simp only [c1, if_true]; exact .inl rfl
      · simp only [c1]
        have h0 : (if s.jidx + n > 0 then ({ s.more R with b := (s.more R).b.shift 0 (s.jidx + n), jidx := s.jidx + n } : RJ).refresh
            else { s.more R with jidx := s.jidx + n }) =
            (if s.jidx + n > 0 then ({ s with b := s.b.shift 0 (s.jidx + n), jidx := s.jidx + n } : RJ).refresh
            else { s with jidx := s.jidx + n }).more R := by
          split
          · rw [show (s.more R).b = s.b.more R from rfl, shift_more]; rfl
          · rfl
        rw [h0]
        generalize (if s.jidx + n > 0 then ({ s with b := s.b.shift 0 (s.jidx + n), jidx := s.jidx + n } : RJ).refresh
            else { s with jidx := s.jidx + n }) = s2
        rw [show segmentEnd (s2.more R).b = segmentEnd s2.b from rfl, show (s2.more R).b.buf = s2.b.buf from rfl,
          show (s2.more R).currentIndex = s2.currentIndex from rfl]
        by_cases c2 : s2.b.buf.length ≤ segmentEnd s2.b
        · simp only [c2, if_true]; exact .inl rfl
        · simp only [c2, if_false]
          rcases (if backToLeading s2.b.buf (segmentEnd s2.b) > 1 then
              writeSegment kd s2.b.buf (backToLeading s2.b.buf (segmentEnd s2.b)) s2.currentIndex w else (w, .ok ())) with ⟨w1, _ | e1 | _ | _⟩
          · simp only
            have h1 : (if backToLeading s2.b.buf (segmentEnd s2.b) > 1 then (s2.more R).b.shift 1 (backToLeading s2.b.buf (segmentEnd s2.b)) else (s2.more R).b) =
                (if backToLeading s2.b.buf (segmentEnd s2.b) > 1 then s2.b.shift 1 (backToLeading s2.b.buf (segmentEnd s2.b)) else s2.b).more R := by
              split
              · rw [show (s2.more R).b = s2.b.more R from rfl, shift_more]
              · rfl
            rw [h1]
            generalize (if backToLeading s2.b.buf (segmentEnd s2.b) > 1 then s2.b.shift 1 (backToLeading s2.b.buf (segmentEnd s2.b)) else s2.b) = b3
            rcases readMore_meets R b3 with h | ⟨h1, h2⟩
            · rw [h]
              rcases b3.readMore with ⟨b4, m | er | _ | _⟩
              · simp only
                by_cases c4 : m = 0
                · simp only [c4, if_true]; exact .inl rfl
                · simp only [c4, if_false]; exact ih _ _
              all_goals exact .inl rfl
            · rw [h2]
              exact .inr (by simp)
          all_goals exact .inl rfl
    · simp only
      rcases w.writeAll v with ⟨w1, _ | kind⟩ <;> exact .inl rfl


/-! ### Lookahead -/

theorem _root_.Verif.RJiter.shift_down {b : Buffer} {f t : Nat} (h : b.nBytes < t) (hf : f ≤ b.nBytes) : (b.shift 0 f).nBytes < t - f := by
  unfold Buffer.shift
  simp only [Nat.min_eq_left hf, Nat.sub_zero]
  split
  · simp only; omega
  · rename_i hc
    simp only
    omega

theorem _root_.Verif.RJiter.collectCountLoop_meets (R : Reader) (n : Nat) (al : Bool) : ∀ (fuel : Nat) (b : Buffer) (c : Nat) (sh : Bool), c ≤ b.nBytes → b.nBytes ≤ b.buf.length →
    Verif.RJiter.Meets R (∃ c' e, (collectCountLoop n al fuel b (c + n) c sh).2 = .ok (c', e) ∧ (collectCountLoop n al fuel b (c + n) c sh).1.nBytes < c' + n)
      (collectCountLoop n al fuel b (c + n) c sh) (collectCountLoop n al fuel (b.more R) (c + n) c sh) := by
  intro fuel
  induction fuel with
  | zero => intro b c sh _ _; exact .inl rfl
  | succ fuel ih =>
    intro b c sh hc hb
    simp only [collectCountLoop]
    have e1 : (b.more R).nBytes = b.nBytes := rfl
    have e2 : (b.more R).buf = b.buf := rfl
    have e3 : (b.more R).nShifted = b.nShifted := rfl
    rw [e1, e2, e3, shift_more]
    by_cases c1 : b.nBytes ≥ c + n
    · simp only [c1, if_true]; exact .inl rfl
    · simp only [c1, if_false]
      by_cases c2 : b.nBytes ≥ b.buf.length
      · simp only [c2, if_true]
        by_cases c3 : (!al || sh || c == 0) = true
        · simp only [c3, if_true]; exact .inl rfl
        · simp only [c3]
          by_cases c5 : n > b.buf.length
          · simp only [c5, if_true]; exact .inl rfl
          · simp only [c5, if_false]
            have hd := shift_down (b := b) (f := c) (t := c + n) (by omega) hc
            have hfit := shift_fits hb 0 c
            rw [Nat.add_sub_cancel_left] at hd
            rcases readMore_meets R (b.shift 0 c) with h | ⟨h1, h2⟩
            · rw [h]
              have hfr := (Frame.readMore (b := b.shift 0 c) (k := 0) hfit (Nat.zero_le _)).ok
              rcases hx : (b.shift 0 c).readMore with ⟨b2, m | e | _ | _⟩
              · rw [hx] at hfr
                simp only
                by_cases c4 : m = 0
                · simp only [c4, if_true]; exact .inl rfl
                · simp only [c4, if_false, Nat.add_sub_cancel_left]
                  have := ih b2 0 true (Nat.zero_le _) hfr
                  simpa only [Nat.zero_add, Bool.false_eq_true, if_false] using this
              all_goals exact .inl rfl
            · rw [h2]
              rw [h2] at h1
              exact .inr ⟨h1, 0, _, rfl, by simp only [Bool.false_eq_true, if_false, Nat.zero_add, if_true]; exact hd⟩
      · simp only [c2, if_false]
        rcases readMore_meets R b with h | ⟨h1, h2⟩
        · rw [h]
          have hg := Frame.readMore hb hc
          rcases hx : b.readMore with ⟨b2, m | e | _ | _⟩
          · rw [hx] at hg
            simp only
            by_cases c4 : m = 0
            · simp only [c4, if_true]; exact .inl rfl
            · simp only [c4, if_false]
              exact ih _ _ _ hg.pos hg.ok
          all_goals exact .inl rfl
        · rw [h2]
          rw [h2] at h1
          exact .inr ⟨h1, c, _, rfl, by simp only [if_true]; omega⟩

theorem _root_.Verif.RJiter.skipNLoop_meets (R : Reader) : ∀ (fuel : Nat) (b : Buffer) (r c t : Nat), c ≤ b.nBytes → b.nBytes ≤ b.buf.length →
    Verif.RJiter.Meets R (∃ p t', (skipNLoop fuel b r c t).2 = .ok (p, t') ∧ t' < t + r)
      (skipNLoop fuel b r c t) (skipNLoop fuel (b.more R) r c t) := by
  intro fuel
  induction fuel with
  | zero => intro b r c t _ _; exact .inl rfl
  | succ fuel ih =>
    intro b r c t hc hb
    simp only [skipNLoop]
    have e1 : (b.more R).nBytes = b.nBytes := rfl
    have e2 : (b.more R).buf = b.buf := rfl
    rw [e1, e2, shift_more]
    by_cases c0 : r = 0
    · simp only [c0, if_true]; exact .inl rfl
    · simp only [c0, if_false]
      by_cases c1 : b.nBytes - c ≥ r
      · simp only [c1, if_true]; exact .inl rfl
      · simp only [c1, if_false]
        have hm : (if (b.nBytes == b.buf.length) = true then (b.shift 0 (c + (b.nBytes - c))).more R else b.more R) =
            (if (b.nBytes == b.buf.length) = true then b.shift 0 (c + (b.nBytes - c)) else b).more R := by split <;> rfl
        rw [hm]
        have hp : (if (b.nBytes == b.buf.length) = true then 0 else c + (b.nBytes - c)) ≤
            (if (b.nBytes == b.buf.length) = true then b.shift 0 (c + (b.nBytes - c)) else b).nBytes ∧
            (if (b.nBytes == b.buf.length) = true then b.shift 0 (c + (b.nBytes - c)) else b).nBytes ≤
            (if (b.nBytes == b.buf.length) = true then b.shift 0 (c + (b.nBytes - c)) else b).buf.length := by
          split
          · exact ⟨Nat.zero_le _, shift_fits hb 0 _⟩
          · exact ⟨by omega, hb⟩
        revert hp
        generalize (if (b.nBytes == b.buf.length) = true then 0 else c + (b.nBytes - c)) = c'
        generalize (if (b.nBytes == b.buf.length) = true then b.shift 0 (c + (b.nBytes - c)) else b) = b1
        intro hp
        rcases readMore_meets R b1 with h | ⟨h1, h2⟩
        · rw [h]
          have hg := Frame.readMore hp.2 hp.1
          rcases hx : b1.readMore with ⟨b2, m | e | _ | _⟩
          · rw [hx] at hg
            simp only
            by_cases c4 : m = 0
            · simp only [c4, if_true]; exact .inl rfl
            · simp only [c4, if_false]
              have := ih b2 (r - (b.nBytes - c)) c' (t + (b.nBytes - c)) hg.pos hg.ok
              rwa [show t + (b.nBytes - c) + (r - (b.nBytes - c)) = t + r by omega] at this
          all_goals exact .inl rfl
        · rw [h2]
          rw [h2] at h1
          exact .inr ⟨h1, _, _, rfl, by omega⟩

theorem lookaheadEnd_more (R : Reader) (s : RJ) (b1 : Buffer) (a e : Nat) :
    (s.more R).lookaheadEnd (b1.more R) a e = ((s.lookaheadEnd b1 a e).1.more R, (s.lookaheadEnd b1 a e).2) := by
  simp only [lookaheadEnd]
  rw [show (s.more R).b = s.b.more R from rfl, show (s.more R).jidx = s.jidx from rfl, isChanged_more, shift_more]
  by_cases c1 : isChanged s.b b1 = true
  · simp only [c1, if_true]
    by_cases c2 : s.b.nShifted = b1.nShifted ∧ s.jidx > 0
    · rw [if_pos c2, if_pos (by exact c2)]
      by_cases c3 : e < s.jidx
      · rw [if_pos c3, if_pos (by exact c3)]; rfl
      · rw [if_neg c3, if_neg (by exact c3)]
        rw [show ((b1.shift 0 s.jidx).more R).buf = (b1.shift 0 s.jidx).buf from rfl]
        show (match slice? (b1.shift 0 s.jidx).buf 0 (e - s.jidx) with | some r => _ | none => _) = _
        rcases slice? (b1.shift 0 s.jidx).buf 0 (e - s.jidx) <;> rfl
    · rw [if_neg c2, if_neg (by exact c2)]
      show (match slice? b1.buf a e with | some r => _ | none => _) = _
      simp only [refresh]
      rcases slice? b1.buf a e <;> rfl
  · simp only [c1]
    show (match slice? b1.buf a e with | some r => _ | none => _) = _
    rcases slice? b1.buf a e <;> rfl

end RJ

end Verif.RJiter
