import Verif.RJiter.Forward
import Verif.RJiter.PeekRoom

/-!
# A reader that fails where another one ends

`late k s` is the parser `s` with a reader that fails with `k` where the reader of `s` ends. Up to that place the two do the same. So the state
of `late k s` at the failure is the state in which the parser waits for more input.
-/

namespace Verif.RJiter

open Buffer

/-- The reader fails where it would end. -/
def Buffer.late (k : Nat) (b : Buffer) : Buffer := { b with reader := b.reader ++ [.fail k] }

/-- The reader fails where it would end. -/
def RJ.late (k : Nat) (s : RJ) : RJ := { s with b := s.b.late k }

/-- The results of a function of the buffer with a reader that ends, and with one that fails there: both are the same, or the one has met the
end and the other one the failure. -/
def Pair {α : Type} (k : Nat) (E : Prop) (x y : Buffer × Res α) : Prop :=
  y = (x.1.late k, x.2) ∨ ((∃ i, y.2 = .err ⟨.io k, i⟩) ∧ x.1.reader = [] ∧ E)

theorem Buffer.readMore_end {b : Buffer} (hr : b.reader = []) (hb : b.nBytes ≤ b.buf.length) : b.readMore = (b, .ok 0) := by
  unfold Buffer.readMore
  rw [if_neg (by omega), hr]
  have : (Reader.read [] (b.buf.length - b.nBytes)) = ([], .ok []) := by
    unfold Reader.read; split <;> rfl
  rw [this]
  simp only [List.append_nil, List.length_nil, Nat.add_zero, List.take_append_drop, Prod.mk.injEq, and_true]
  rcases b with ⟨r, _, _, _, _, _⟩
  simp only at hr
  subst hr
  rfl

theorem readMore_pair (k : Nat) (b : Buffer) : Pair k (b.readMore = (b, .ok 0)) b.readMore (b.late k).readMore := by
  by_cases hb : b.buf.length < b.nBytes
  · left
    unfold Buffer.readMore
    rw [if_pos hb, if_pos (by exact hb)]
  · by_cases h0 : b.buf.length - b.nBytes = 0
    · left
      unfold Buffer.readMore
      rw [if_neg hb, if_neg (by exact hb)]
      simp only [Buffer.late, Reader.read, h0, if_true]
    · cases hr : b.reader with
      | nil =>
        right
        have he := b.readMore_end hr (by omega)
        refine ⟨⟨b.nBytes, ?_⟩, by rw [he]; exact hr, he⟩
        unfold Buffer.readMore
        rw [if_neg (by exact hb)]
        simp only [Buffer.late, hr, Reader.read, h0, if_false, List.nil_append]
      | cons e r =>
        left
        unfold Buffer.readMore
        rw [if_neg hb, if_neg (by exact hb)]
        simp only [Buffer.late, hr, Reader.read, h0, if_false, List.cons_append]
        cases e with
        | fail q => rfl
        | data c cs =>
          simp only
          rcases cs.drop (b.buf.length - b.nBytes - 1) with _ | ⟨d, ds⟩ <;> rfl

theorem shift_late (k : Nat) (b : Buffer) (t f : Nat) : (b.late k).shift t f = (b.shift t f).late k := by
  unfold Buffer.shift Buffer.late
  simp only
  split <;> rfl

theorem scan_late (k : Nat) (b : Buffer) (p : Byte → Bool) (i : Nat) : (b.late k).scan p i = b.scan p i := rfl

theorem collectWhileLoop_pair (k : Nat) (p : Byte → Bool) (st : Nat) (al : Bool) : ∀ (fuel : Nat) (b : Buffer) (i c : Nat) (sh : Bool),
    Pair k (∃ c', (collectWhileLoop p st al fuel b i c sh).2 = .ok (c', (collectWhileLoop p st al fuel b i c sh).1.nBytes))
      (collectWhileLoop p st al fuel b i c sh) (collectWhileLoop p st al fuel (b.late k) i c sh) := by
  intro fuel
  induction fuel with
  | zero => intro b i c sh; exact .inl rfl
  | succ fuel ih =>
    intro b i c sh
    simp only [collectWhileLoop, scan_late]
    have e1 : (b.late k).nBytes = b.nBytes := rfl
    have e2 : (b.late k).buf = b.buf := rfl
    have e3 : (b.late k).nShifted = b.nShifted := rfl
    rw [e1, e2, e3, shift_late]
    by_cases c1 : b.scan p i < b.nBytes
    · simp only [c1, if_true]; exact .inl rfl
    · simp only [c1, if_false]
      by_cases c2 : b.nBytes ≥ b.buf.length
      · simp only [c2, if_true]
        by_cases c3 : (!al || sh || st == 0) = true
        · simp only [c3, if_true]; exact .inl rfl
        · simp only [c3]
          rcases readMore_pair k (b.shift 0 st) with h | ⟨⟨j, h⟩, h1, h2⟩
          · rw [h]
            rcases (b.shift 0 st).readMore with ⟨b2, n | e | _ | _⟩
            · simp only
              by_cases c4 : n = 0
              · simp only [c4, if_true]; exact .inl rfl
              · simp only [c4, if_false]; exact ih _ _ _ _
            all_goals exact .inl rfl
          · rw [h2]
            rcases hy : ((b.shift 0 st).late k).readMore with ⟨b3, r⟩
            rw [hy] at h
            simp only at h
            subst h
            rw [h2] at h1
            exact .inr ⟨⟨j, rfl⟩, h1, _, rfl⟩
      · simp only [c2, if_false]
        rcases readMore_pair k b with h | ⟨⟨j, h⟩, h1, h2⟩
        · rw [h]
          rcases b.readMore with ⟨b2, n | e | _ | _⟩
          · simp only
            by_cases c4 : n = 0
            · simp only [c4, if_true]; exact .inl rfl
            · simp only [c4, if_false]; exact ih _ _ _ _
          all_goals exact .inl rfl
        · rw [h2]
          rcases hy : (b.late k).readMore with ⟨b3, r⟩
          rw [hy] at h
          simp only at h
          subst h
          rw [h2] at h1
          exact .inr ⟨⟨j, rfl⟩, h1, _, rfl⟩

theorem collectWhile_pair (k fuel : Nat) (b : Buffer) (p : Byte → Bool) (st : Nat) (al : Bool) :
    Pair k (∃ c', (b.collectWhile fuel p st al).2 = .ok (c', (b.collectWhile fuel p st al).1.nBytes))
      (b.collectWhile fuel p st al) ((b.late k).collectWhile fuel p st al) := collectWhileLoop_pair _ _ _ _ _ _ _ _ _

theorem shift_all_nBytes (b : Buffer) (pos : Nat) : (if b.nBytes > pos then b.shift pos b.nBytes else b).nBytes ≤ pos := by
  split
  · rename_i h
    unfold Buffer.shift
    simp only [Nat.min_self]
    rw [if_pos ⟨h, h⟩]
    simp only; omega
  · omega

theorem skipSpacesLoop_pair (k fuel0 pos : Nat) : ∀ (fuel : Nat) (b : Buffer),
    Pair k ((skipSpacesLoop fuel0 pos fuel b).2 = .ok () ∧ (skipSpacesLoop fuel0 pos fuel b).1.nBytes ≤ pos)
      (skipSpacesLoop fuel0 pos fuel b) (skipSpacesLoop fuel0 pos fuel (b.late k)) := by
  intro fuel
  induction fuel with
  | zero => intro b; exact .inl rfl
  | succ fuel ih =>
    intro b
    simp only [skipSpacesLoop]
    rcases collectWhile_pair k fuel0 b isAsciiWs pos false with h | ⟨⟨j, h⟩, h1, c, h2⟩
    · rw [h]
      rcases b.collectWhile fuel0 isAsciiWs pos false with ⟨b1, ⟨c, e⟩ | e | _ | _⟩
      · left
        simp only
        split
        · rw [shift_late]
        · rfl
      · simp only
        split
        · rw [shift_late]; exact ih _
        · exact .inl rfl
      all_goals exact .inl rfl
    · rcases hx : b.collectWhile fuel0 isAsciiWs pos false with ⟨b1, r⟩
      rcases hy : (b.late k).collectWhile fuel0 isAsciiWs pos false with ⟨b2, r2⟩
      rw [hx] at h1 h2
      rw [hy] at h
      simp only at h h1 h2
      subst h h2
      right
      simp only
      refine ⟨⟨j, ?_⟩, ?_, trivial, shift_all_nBytes b1 pos⟩
      · rw [if_neg (by simp)]
      · split
        · rw [shift_reader]; exact h1
        · exact h1

theorem skipSpaces_pair (k fuel : Nat) (b : Buffer) (pos : Nat) :
    Pair k ((b.skipSpaces fuel pos).2 = .ok () ∧ (b.skipSpaces fuel pos).1.nBytes ≤ pos) (b.skipSpaces fuel pos) ((b.late k).skipSpaces fuel pos) :=
  skipSpacesLoop_pair _ _ _ _ _

/-! ### The first byte stays -/

/-- The first byte of the buffer is the same. -/
def Heads (b b' : Buffer) : Prop := 0 < b'.nBytes ∧ b'.buf.head? = b.buf.head?

theorem head_take {l : Bytes} {n : Nat} (h : 0 < n) : (l.take n).head? = l.head? := by
  cases n with
  | zero => omega
  | succ n => cases l <;> rfl

theorem head_append {a b : Bytes} (h : a ≠ []) : (a ++ b).head? = a.head? := by
  cases a with
  | nil => exact absurd rfl h
  | cons c a => rfl

theorem readMore_head {b : Buffer} (h0 : 0 < b.nBytes) : Heads b b.readMore.1 := by
  unfold Buffer.readMore
  split
  · exact ⟨h0, rfl⟩
  · rename_i hlt
    split
    · exact ⟨h0, rfl⟩
    · rename_i r bs _
      refine ⟨by simp only; omega, ?_⟩
      simp only
      cases hb : b.buf with
      | nil => rw [hb] at hlt; simp at hlt; omega
      | cons c l =>
        rw [head_append (by cases hn : b.nBytes <;> simp_all), head_append (by cases hn : b.nBytes <;> simp_all), head_take h0]

theorem shift_head {b : Buffer} {pos f : Nat} (hp : 0 < pos) (h0 : 0 < b.nBytes) : Heads b (b.shift pos f) := by
  unfold Buffer.shift
  simp only
  split
  · rename_i hc
    refine ⟨by simp only; omega, ?_⟩
    simp only
    split
    · cases hb : b.buf with
      | nil => simp
      | cons c l =>
        rw [head_append, head_append, head_take hp]
        · cases hn : pos <;> simp_all
        · cases hn : pos <;> simp_all
    · rfl
  · exact ⟨h0, rfl⟩

theorem Heads.trans {a b c : Buffer} (h1 : Heads a b) (h2 : Heads b c) : Heads a c := ⟨h2.1, h2.2.trans h1.2⟩

theorem collectWhileLoop_head (p : Byte → Bool) (st : Nat) : ∀ (fuel : Nat) (b : Buffer) (i c : Nat) (sh : Bool), 0 < b.nBytes →
    Heads b (collectWhileLoop p st false fuel b i c sh).1 := by
  intro fuel
  induction fuel with
  | zero => intro b i c sh h; exact ⟨h, rfl⟩
  | succ fuel ih =>
    intro b i c sh h
    simp only [collectWhileLoop]
    split
    · exact ⟨h, rfl⟩
    · split
      · simp; exact ⟨h, rfl⟩
      · have h1 := readMore_head h
        revert h1
        rcases b.readMore with ⟨b2, n | e | _ | _⟩ <;> intro h1
        · simp only
          split
          · exact h1
          · exact h1.trans (ih _ _ _ _ h1.1)
        all_goals exact h1

theorem skipSpacesLoop_head (fuel0 pos : Nat) (hp : 0 < pos) : ∀ (fuel : Nat) (b : Buffer), 0 < b.nBytes →
    Heads b (skipSpacesLoop fuel0 pos fuel b).1 := by
  intro fuel
  induction fuel with
  | zero => intro b h; exact ⟨h, rfl⟩
  | succ fuel ih =>
    intro b h
    simp only [skipSpacesLoop]
    have h1 := collectWhileLoop_head isAsciiWs pos fuel0 b pos pos false h
    unfold collectWhile
    revert h1
    rcases collectWhileLoop isAsciiWs pos false fuel0 b pos pos false with ⟨b1, ⟨c, e⟩ | e | _ | _⟩ <;> intro h1
    · simp only
      split
      · exact h1.trans (shift_head hp h1.1)
      · exact h1
    · simp only
      split
      · have h2 := shift_head (f := b1.nBytes) hp h1.1
        exact (h1.trans h2).trans (ih _ h2.1)
      · exact h1
    all_goals exact h1

namespace RJ

/-- `Pair` for the functions of the parser. -/
def Pair {α : Type} (k : Nat) (E : Prop) (x y : RJ × Res α) : Prop :=
  y = (x.1.late k, x.2) ∨ ((∃ i, y.2 = .err ⟨.io k, i⟩) ∧ x.1.b.reader = [] ∧ E)

theorem isChanged_late (k : Nat) (b c : Buffer) : isChanged (b.late k) (c.late k) = isChanged b c := rfl

/-- Nothing is left but the token that may be dropped. -/
def Bare (tok : Option Byte) (s : RJ) : Prop := s.jdata = [] ∨ ∃ t, tok = some t ∧ s.jdata = [t]

theorem bare_nil {tok : Option Byte} {s : RJ} (h : s.jlen = 0) : Bare tok s := .inl (by simp [jdata, h])

theorem jdata_short {s : RJ} {t : Byte} (hl : s.jlen ≤ 1) (ht : s.b.buf.head? = some t) : s.jdata = [] ∨ s.jdata = [t] := by
  unfold jdata
  cases hb : s.b.buf with
  | nil => rw [hb] at ht; simp at ht
  | cons c l =>
    rw [hb] at ht
    simp only [List.head?_cons, Option.some.injEq] at ht
    subst ht
    obtain h0 | h1 : s.jlen = 0 ∨ s.jlen = 1 := by omega
    · rw [h0]; left; simp
    · rw [h1]
      cases s.jidx with
      | zero => right; simp
      | succ n => left; simp

theorem skipSpacesFeeding_pair (k fuel : Nat) (s : RJ) (jp : Nat) (tok : Option Byte) (hs : s.jlen = s.b.nBytes)
    (hok : ∀ b1 : Buffer, ((if jp > 0 then s.b.shift 0 jp else s.b).skipSpaces fuel 0) = (b1, .ok ()) → b1.nBytes ≤ b1.buf.length) :
    Pair k ((s.skipSpacesFeeding fuel jp tok).2 = .ok () ∧ Bare tok (s.skipSpacesFeeding fuel jp tok).1)
      (s.skipSpacesFeeding fuel jp tok) ((s.late k).skipSpacesFeeding fuel jp tok) := by
  have hd : ∀ b : Buffer, (if isChanged (s.late k).b (b.late k) then (({ s.late k with b := b.late k } : RJ).refresh, (Res.ok () : Res Unit))
      else ({ s.late k with b := b.late k }, .ok ())) = ((if isChanged s.b b then (({ s with b := b } : RJ).refresh, (Res.ok () : Res Unit))
      else ({ s with b := b }, .ok ())).1.late k, (if isChanged s.b b then (({ s with b := b } : RJ).refresh, (Res.ok () : Res Unit))
      else ({ s with b := b }, .ok ())).2) := by
    intro b
    rw [show (s.late k).b = s.b.late k from rfl, isChanged_late]
    split <;> rfl
  have hlen : ∀ b : Buffer, (if isChanged s.b b then (({ s with b := b } : RJ).refresh, (Res.ok () : Res Unit))
      else ({ s with b := b }, .ok ())).1.jlen = b.nBytes := by
    intro b
    split
    · rfl
    · rename_i h
      simp only [isChanged, Bool.or_eq_true, bne_iff_ne, ne_eq, not_or, Decidable.not_not] at h
      show s.jlen = b.nBytes
      rw [hs, h.2]
  have hbb : ∀ b : Buffer, (if isChanged s.b b then (({ s with b := b } : RJ).refresh, (Res.ok () : Res Unit))
      else ({ s with b := b }, .ok ())).1.b = b ∧ (if isChanged s.b b then (({ s with b := b } : RJ).refresh, (Res.ok () : Res Unit))
      else ({ s with b := b }, .ok ())).2 = .ok () := by
    intro b; split <;> exact ⟨rfl, rfl⟩
  -- the end: nothing is left
  have hnil : ∀ (b : Buffer) (i : Nat) (y : RJ), b.reader = [] → b.nBytes = 0 →
      Pair k ((if isChanged s.b b then (({ s with b := b } : RJ).refresh, (Res.ok () : Res Unit)) else ({ s with b := b }, .ok ())).2 = .ok () ∧
        Bare tok (if isChanged s.b b then (({ s with b := b } : RJ).refresh, (Res.ok () : Res Unit)) else ({ s with b := b }, .ok ())).1)
      (if isChanged s.b b then (({ s with b := b } : RJ).refresh, (Res.ok () : Res Unit)) else ({ s with b := b }, .ok ()))
      (y, .err ⟨.io k, i⟩) := by
    intro b i y hr h0
    exact .inr ⟨⟨i, rfl⟩, by rw [(hbb b).1]; exact hr, (hbb b).2, bare_nil (by rw [hlen b]; exact h0)⟩
  have h0 : (if jp > 0 then (s.late k).b.shift 0 jp else (s.late k).b) = (if jp > 0 then s.b.shift 0 jp else s.b).late k := by
    split
    · exact shift_late _ _ _ _
    · rfl
  simp only [skipSpacesFeeding, h0]
  rcases skipSpaces_pair k fuel (if jp > 0 then s.b.shift 0 jp else s.b) 0 with h | ⟨⟨j, h⟩, h1, h2, h3⟩
  · rw [h]
    rcases hx : (if jp > 0 then s.b.shift 0 jp else s.b).skipSpaces fuel 0 with ⟨b1, _ | e | _ | _⟩
    · have hok1 := hok b1 hx
      simp only
      cases tok with
      | none => exact .inl (hd b1)
      | some t =>
        simp only
        have hp1 : Verif.RJiter.Pair k (b1.nBytes ≤ 0 ∧ b1.readMore = (b1, .ok 0)) (if b1.nBytes ≤ 0 then b1.readMore else (b1, .ok 0))
            (if (b1.late k).nBytes ≤ 0 then (b1.late k).readMore else (b1.late k, .ok 0)) := by
          rw [show (b1.late k).nBytes = b1.nBytes from rfl]
          split
          · rename_i hz
            rcases readMore_pair k b1 with h | ⟨h1, h2, h3⟩
            · exact .inl h
            · exact .inr ⟨h1, h2, hz, h3⟩
          · exact .inl rfl
        rcases hp1 with h | ⟨⟨j, h⟩, h1, h2, h3⟩
        · rw [h]
          rcases (if b1.nBytes ≤ 0 then b1.readMore else (b1, .ok 0)) with ⟨b2, n | e | _ | _⟩
          · simp only
            rw [show (b2.late k).nBytes = b2.nBytes from rfl, show (b2.late k).buf = b2.buf from rfl]
            split
            · rename_i hc
              rcases skipSpaces_pair k fuel b2 1 with h | ⟨⟨j, h⟩, h1, h2, h3⟩
              · rw [h]
                rcases b2.skipSpaces fuel 1 with ⟨b3, _ | e | _ | _⟩
                · exact .inl (hd b3)
                all_goals exact .inl rfl
              · have h4 := skipSpacesLoop_head fuel 1 (by omega) fuel b2 hc.1
                rcases hx : b2.skipSpaces fuel 1 with ⟨b3, r⟩
                rcases hy : (b2.late k).skipSpaces fuel 1 with ⟨b4, r2⟩
                rw [hx] at h1 h2 h3
                rw [hy] at h
                rw [show skipSpacesLoop fuel 1 fuel b2 = b2.skipSpaces fuel 1 from rfl, hx] at h4
                simp only at h h1 h2 h3 h4
                subst h h2
                right
                refine ⟨⟨j, rfl⟩, by rw [(hbb b3).1]; exact h1, (hbb b3).2, ?_⟩
                have h5 : b3.buf.head? = some t := by
                  rw [h4.2]
                  have := hc.2
                  cases hbuf : b2.buf with
                  | nil => rw [hbuf] at this; simp at this
                  | cons c l => rw [hbuf] at this; simpa using this
                have h6 := jdata_short (s := (if isChanged s.b b3 then (({ s with b := b3 } : RJ).refresh, (Res.ok () : Res Unit))
                  else ({ s with b := b3 }, .ok ())).1) (t := t) (by rw [hlen b3]; exact h3) (by rw [(hbb b3).1]; exact h5)
                rcases h6 with h6 | h6
                · exact .inl h6
                · exact .inr ⟨t, rfl, h6⟩
            · exact .inl (hd b2)
          all_goals exact .inl rfl
        · rw [if_pos h2, h3]
          rw [if_pos h2, h3] at h1
          rcases hy : (if (b1.late k).nBytes ≤ 0 then (b1.late k).readMore else (b1.late k, .ok 0)) with ⟨b3, r⟩
          rw [hy] at h
          simp only at h h1
          subst h
          simp only
          rw [if_neg (by omega)]
          exact hnil _ _ _ h1 (by omega)
    all_goals exact .inl rfl
  · rcases hx : (if jp > 0 then s.b.shift 0 jp else s.b).skipSpaces fuel 0 with ⟨b1, r⟩
    rcases hy : ((if jp > 0 then s.b.shift 0 jp else s.b).late k).skipSpaces fuel 0 with ⟨b2, r2⟩
    rw [hx] at h1 h2 h3
    rw [hy] at h
    simp only at h h1 h2 h3
    subst h h2
    have hok1 := hok b1 hx
    cases tok with
    | none => exact hnil _ _ _ h1 (by omega)
    | some t =>
      simp only
      rw [if_pos (by omega), b1.readMore_end h1 hok1]
      simp only
      rw [if_neg (by omega)]
      exact hnil _ _ _ h1 (by omega)

/-- What a call has come to that met the end: no success, except for a value that may stop at the end. -/
def Ended {α : Type} (eager : Bool) (x : RJ × Res α) : Prop :=
  (∀ v, x.2 ≠ .ok v) ∨ (eager = true ∧ x.1.b.nBytes ≤ x.1.jidx)

theorem retryLoop_pair {α : Type} (k : Nat) (f : JFn α) (eager : Bool) : ∀ (fuel : Nat) (s : RJ),
    Pair k (Ended eager (retryLoop f eager fuel s)) (retryLoop f eager fuel s) (retryLoop f eager fuel (s.late k)) := by
  intro fuel
  induction fuel with
  | zero => intro s; exact .inl rfl
  | succ fuel ih =>
    intro s
    simp only [retryLoop, call]
    rw [show (s.late k).jdata = s.jdata from rfl, show (s.late k).jidx = s.jidx from rfl]
    rcases f s.jdata with ⟨n, v | e⟩
    · simp only
      split
      · exact .inl rfl
      · rw [show (s.late k).b = s.b.late k from rfl]
        rcases readMore_pair k s.b with h | ⟨⟨j, h⟩, h1, h2⟩
        · rw [h]
          rcases s.b.readMore with ⟨b2, m | er | _ | _⟩
          · simp only
            split
            · exact .inl rfl
            · exact ih _
          all_goals exact .inl rfl
        · rw [h2]
          rcases hy : (s.b.late k).readMore with ⟨b3, r⟩
          rw [hy] at h
          rw [h2] at h1
          simp only at h h1
          subst h
          exact .inr ⟨⟨j, rfl⟩, h1, .inl (by simp)⟩
    · simp only
      rw [show (({ s.late k with jidx := s.jidx + n } : RJ).reallyOk eager) = (({ s with jidx := s.jidx + n } : RJ).reallyOk eager) from rfl]
      split
      · exact .inl rfl
      · rename_i hro
        rw [show (s.late k).b = s.b.late k from rfl]
        rcases readMore_pair k s.b with h | ⟨⟨j, h⟩, h1, h2⟩
        · rw [h]
          rcases s.b.readMore with ⟨b2, m | er | _ | _⟩
          · simp only
            split
            · exact .inl rfl
            · exact ih _
          all_goals exact .inl rfl
        · rw [h2]
          rcases hy : (s.b.late k).readMore with ⟨b3, r⟩
          rw [hy] at h
          rw [h2] at h1
          simp only at h h1
          subst h
          refine .inr ⟨⟨j, rfl⟩, h1, .inr ?_⟩
          simp only [reallyOk, Bool.or_eq_true, Bool.not_eq_true', decide_eq_true_eq, not_or, Bool.not_eq_false] at hro
          exact ⟨hro.1, Nat.le_of_not_lt hro.2⟩

/-- The call fails if there is nothing but the token that may be dropped. -/
def Needs {α : Type} (f : JFn α) (tok : Option Byte) : Prop :=
  (∃ n e, f [] = (n, .error e)) ∧ ∀ t, tok = some t → ∃ n e, f [t] = (n, .error e)

theorem retryLoop_still {α : Type} {f : JFn α} {eager : Bool} {s : RJ} (hr : s.b.reader = []) (hok : s.b.nBytes ≤ s.b.buf.length) (fuel : Nat) :
    (retryLoop f eager fuel s).1.b.reader = [] := by
  cases fuel with
  | zero => exact hr
  | succ fuel =>
    simp only [retryLoop, call]
    rcases f s.jdata with ⟨n, e | v⟩
    · simp only [s.b.readMore_end hr hok, if_true]
      split <;> exact hr
    · simp only [s.b.readMore_end hr hok, if_true]
      split <;> exact hr

theorem retryLoop_bare {α : Type} {f : JFn α} {tok : Option Byte} {eager : Bool} (hf : Needs f tok) {s : RJ} (hb : Bare tok s)
    (hr : s.b.reader = []) (hok : s.b.nBytes ≤ s.b.buf.length) (fuel : Nat) : ∀ v, (retryLoop f eager fuel s).2 ≠ .ok v := by
  cases fuel with
  | zero => intro v; simp [retryLoop]
  | succ fuel =>
    have : ∃ n e, f s.jdata = (n, .error e) := by
      rcases hb with h | ⟨t, h1, h2⟩
      · rw [h]; exact hf.1
      · rw [h2]; exact hf.2 t h1
    obtain ⟨n, e, h⟩ := this
    intro v
    simp only [retryLoop, call, h]
    split
    · simp
    · rw [s.b.readMore_end hr hok]
      simp

theorem _root_.Verif.RJiter.shift_fits {b : Buffer} (h : b.nBytes ≤ b.buf.length) (t f : Nat) : (b.shift t f).nBytes ≤ (b.shift t f).buf.length := by
  by_cases htf : t ≤ f
  · exact (b.shift_spec h htf).2.2.2.2.1
  · unfold Buffer.shift
    simp only
    rw [if_neg (by omega)]
    exact h

theorem _root_.Verif.RJiter.Reach.fits {b b' : Buffer} (h : Reach b b') (hb : b.nBytes ≤ b.buf.length) : b'.nBytes ≤ b'.buf.length :=
  h.keeps (P := fun b => b.nBytes ≤ b.buf.length) (fun _ h _ => (Frame.readMore (k := 0) h (Nat.zero_le _)).ok)
    (fun _ t f h _ => shift_fits h t f) hb hb

theorem loopUntilSuccess_pair {α : Type} (k fuel : Nat) {s : RJ} (hs : s.Sync) {f : JFn α} {tok : Option Byte} {eager : Bool} (hf : Needs f tok) :
    Pair k (Ended eager (s.loopUntilSuccess fuel f tok eager)) (s.loopUntilSuccess fuel f tok eager)
      ((s.late k).loopUntilSuccess fuel f tok eager) := by
  have key : ∀ n, Pair k (Ended eager (match ({ s with jidx := n } : RJ).skipSpacesFeeding fuel s.jidx tok with
      | (s2, .ok ()) => retryLoop f eager fuel s2
      | (s2, .err e) => (s2, .err e)
      | (s2, .panic) => (s2, .panic)
      | (s2, .diverge) => (s2, .diverge)))
      (match ({ s with jidx := n } : RJ).skipSpacesFeeding fuel s.jidx tok with
      | (s2, .ok ()) => retryLoop f eager fuel s2
      | (s2, .err e) => (s2, .err e)
      | (s2, .panic) => (s2, .panic)
      | (s2, .diverge) => (s2, .diverge))
      (match ({ s.late k with jidx := n } : RJ).skipSpacesFeeding fuel s.jidx tok with
      | (s2, .ok ()) => retryLoop f eager fuel s2
      | (s2, .err e) => (s2, .err e)
      | (s2, .panic) => (s2, .panic)
      | (s2, .diverge) => (s2, .diverge)) := by
    intro n
    have hr := skipSpacesFeeding_reach fuel { s with jidx := n } s.jidx tok
    have hp := skipSpacesFeeding_pair k fuel { s with jidx := n } s.jidx tok hs.len (by
      intro b1 h
      have h0 : Reach s.b (if s.jidx > 0 then s.b.shift 0 s.jidx else s.b) := by
        split
        · exact .shift _ _ _
        · exact .refl _
      have h1 := h0.trans (skipSpaces_reach fuel _ 0)
      rw [h] at h1
      exact h1.fits hs.ok)
    rw [show ({ s.late k with jidx := n } : RJ) = ({ s with jidx := n } : RJ).late k from rfl]
    rcases hp with h | ⟨⟨j, h⟩, h1, h2, h3⟩
    · rw [h]
      rcases ({ s with jidx := n } : RJ).skipSpacesFeeding fuel s.jidx tok with ⟨s2, _ | e | _ | _⟩
      · exact retryLoop_pair k f eager fuel s2
      all_goals exact .inl rfl
    · rcases hx : ({ s with jidx := n } : RJ).skipSpacesFeeding fuel s.jidx tok with ⟨s2, r⟩
      rcases hy : (({ s with jidx := n } : RJ).late k).skipSpacesFeeding fuel s.jidx tok with ⟨s3, r3⟩
      rw [hx] at h1 h2 h3 hr
      rw [hy] at h
      simp only at h h1 h2 h3 hr
      subst h h2
      simp only
      have hfit := hr.fits hs.ok
      exact .inr ⟨⟨j, rfl⟩, retryLoop_still h1 hfit fuel, .inl (retryLoop_bare hf h3 h1 hfit fuel)⟩
  simp only [loopUntilSuccess, call]
  rw [show (s.late k).jdata = s.jdata from rfl, show (s.late k).jidx = s.jidx from rfl]
  rcases f s.jdata with ⟨n, e | v⟩
  · exact key _
  · simp only
    rw [show (({ s.late k with jidx := s.jidx + n } : RJ).reallyOk eager) = (({ s with jidx := s.jidx + n } : RJ).reallyOk eager) from rfl]
    by_cases c : (({ s with jidx := s.jidx + n } : RJ).reallyOk eager) = true
    · simp only [c, if_true]; exact .inl rfl
    · simp only [c]; exact key _

/-! ### The calls -/

theorem peek_needs : Needs Jiter.peek none := ⟨⟨_, _, rfl⟩, nofun⟩
theorem knownArray_needs : Needs Jiter.knownArray (some 91) := by
  refine ⟨⟨_, _, rfl⟩, ?_⟩
  intro t ht
  simp only [Option.some.injEq] at ht
  subst ht
  exact ⟨_, _, rfl⟩
theorem arrayStep_needs : Needs Jiter.arrayStep (some 44) := by
  refine ⟨⟨_, _, rfl⟩, ?_⟩
  intro t ht
  simp only [Option.some.injEq] at ht
  subst ht
  exact ⟨_, _, rfl⟩
theorem nextObject_needs : Needs (Jiter.nextObject Jiter.knownBytes) (some 123) := by
  refine ⟨⟨_, _, rfl⟩, ?_⟩
  intro t ht
  simp only [Option.some.injEq] at ht
  subst ht
  exact ⟨_, _, rfl⟩
theorem nextKey_needs : Needs (Jiter.nextKey Jiter.knownBytes) (some 44) := by
  refine ⟨⟨_, _, rfl⟩, ?_⟩
  intro t ht
  simp only [Option.some.injEq] at ht
  subst ht
  exact ⟨_, _, rfl⟩
theorem knownNull_needs : Needs Jiter.knownNull none := ⟨⟨_, _, rfl⟩, nofun⟩
theorem knownBool_needs (pk : Byte) : Needs (Jiter.knownBool pk) none := by
  refine ⟨?_, nofun⟩
  unfold Jiter.knownBool
  split
  · exact ⟨_, _, rfl⟩
  · split <;> exact ⟨_, _, rfl⟩
theorem nextNumber_needs : Needs Jiter.nextNumberBytes none := ⟨⟨_, _, rfl⟩, nofun⟩

/-- A call that is not done before it has more than its value. -/
def Waits {α : Type} (k : Nat) (x y : RJ × Res α) : Prop :=
  y = (x.1.late k, x.2) ∨ ((∃ i, y.2 = .err ⟨.io k, i⟩) ∧ ∀ v, x.2 ≠ .ok v)

theorem Pair.waits {α : Type} {k : Nat} {x y : RJ × Res α} (h : Pair k (Ended false x) x y) : Waits k x y := by
  rcases h with h | ⟨h1, _, h2 | h2⟩
  · exact .inl h
  · exact .inr ⟨h1, h2⟩
  · cases h2.1

section
variable {s : RJ} (k fuel : Nat) (hs : s.Sync)
include hs

theorem peek_waits : Waits k (s.peek fuel) ((s.late k).peek fuel) := (loopUntilSuccess_pair k fuel hs peek_needs).waits
theorem knownArray_waits : Waits k (s.knownArray fuel) ((s.late k).knownArray fuel) := (loopUntilSuccess_pair k fuel hs knownArray_needs).waits
theorem arrayStep_waits : Waits k (s.arrayStep fuel) ((s.late k).arrayStep fuel) := (loopUntilSuccess_pair k fuel hs arrayStep_needs).waits
theorem nextObjectBytes_waits : Waits k (s.nextObjectBytes fuel) ((s.late k).nextObjectBytes fuel) :=
  (loopUntilSuccess_pair k fuel hs nextObject_needs).waits
theorem nextKeyBytes_waits : Waits k (s.nextKeyBytes fuel) ((s.late k).nextKeyBytes fuel) := (loopUntilSuccess_pair k fuel hs nextKey_needs).waits
theorem knownNull_waits : Waits k (s.knownNull fuel) ((s.late k).knownNull fuel) := (loopUntilSuccess_pair k fuel hs knownNull_needs).waits
theorem knownBool_waits (pk : Byte) : Waits k (s.knownBool fuel pk) ((s.late k).knownBool fuel pk) :=
  (loopUntilSuccess_pair k fuel hs (knownBool_needs pk)).waits

end

theorem finishLoop_pair (k : Nat) : ∀ (fuel : Nat) (s : RJ), Pair k True (s.finishLoop fuel) ((s.late k).finishLoop fuel) := by
  intro fuel
  induction fuel with
  | zero => intro s; exact .inl rfl
  | succ fuel ih =>
    intro s
    simp only [finishLoop, call]
    rw [show (s.late k).jdata = s.jdata from rfl, show (s.late k).jidx = s.jidx from rfl]
    rcases Jiter.finish s.jdata with ⟨n, e | v⟩
    · exact .inl rfl
    · simp only
      rw [show (s.late k).b.buf = s.b.buf from rfl, show (s.late k).b = s.b.late k from rfl]
      by_cases c : s.jidx + n < s.b.buf.length
      · simp only [c, if_true]
        rcases readMore_pair k s.b with h | ⟨⟨j, h⟩, h1, h2⟩
        · rw [h]
          rcases s.b.readMore with ⟨b4, m | er | _ | _⟩
          · simp only
            by_cases c4 : m = 0
            · simp only [c4, if_true]; exact .inl rfl
            · simp only [c4, if_false, shift_late]
              exact ih _
          all_goals exact .inl rfl
        · rw [h2] at h1 ⊢
          rcases hy : (s.b.late k).readMore with ⟨b4, r⟩
          rw [hy] at h
          simp only at h
          subst h
          exact .inr ⟨⟨j, rfl⟩, h1, trivial⟩
      · simp only [c, if_false]
        rw [if_neg (by decide), if_neg (by decide), shift_late]
        exact ih _

/-- The functions for long strings have written the same when they meet the end or the failure. -/
def WaitsW (k : Nat) (x y : (RJ × Writer) × Res Unit) : Prop :=
  y = ((x.1.1.late k, x.1.2), x.2) ∨ ((∃ i, y.2 = .err ⟨.io k, i⟩) ∧ (∀ v, x.2 ≠ .ok v) ∧ y.1.2 = x.1.2)

theorem handleLong_waits (k : Nat) (kd : Kind) : ∀ (fuel : Nat) (s : RJ) (w : Writer), WaitsW k (s.handleLong kd fuel w) ((s.late k).handleLong kd fuel w) := by
  intro fuel
  induction fuel with
  | zero => intro s w; exact .inl rfl
  | succ fuel ih =>
    intro s w
    simp only [handleLong, call]
    rw [show (s.late k).jdata = s.jdata from rfl, show (s.late k).jidx = s.jidx from rfl]
    rcases kd.parser s.jdata with ⟨n, e | v⟩
    · simp only
      by_cases c1 : (!canRetry e.type) = true
      · simp only [c1, if_true]; exact .inl rfl
      · simp only [c1]
        have h0 : (if s.jidx + n > 0 then ({ s.late k with b := (s.late k).b.shift 0 (s.jidx + n), jidx := s.jidx + n } : RJ).refresh
            else { s.late k with jidx := s.jidx + n }) =
            (if s.jidx + n > 0 then ({ s with b := s.b.shift 0 (s.jidx + n), jidx := s.jidx + n } : RJ).refresh
            else { s with jidx := s.jidx + n }).late k := by
          split
          · rw [show (s.late k).b = s.b.late k from rfl, shift_late]; rfl
          · rfl
        rw [h0]
        generalize (if s.jidx + n > 0 then ({ s with b := s.b.shift 0 (s.jidx + n), jidx := s.jidx + n } : RJ).refresh
            else { s with jidx := s.jidx + n }) = s2
        rw [show segmentEnd (s2.late k).b = segmentEnd s2.b from rfl, show (s2.late k).b.buf = s2.b.buf from rfl,
          show (s2.late k).currentIndex = s2.currentIndex from rfl]
        by_cases c2 : s2.b.buf.length ≤ segmentEnd s2.b
        · simp only [c2, if_true]; exact .inl rfl
        · simp only [c2, if_false]
          rcases (if backToLeading s2.b.buf (segmentEnd s2.b) > 1 then
              writeSegment kd s2.b.buf (backToLeading s2.b.buf (segmentEnd s2.b)) s2.currentIndex w else (w, .ok ())) with ⟨w1, _ | e1 | _ | _⟩
          · simp only
            have h1 : (if backToLeading s2.b.buf (segmentEnd s2.b) > 1 then (s2.late k).b.shift 1 (backToLeading s2.b.buf (segmentEnd s2.b)) else (s2.late k).b) =
                (if backToLeading s2.b.buf (segmentEnd s2.b) > 1 then s2.b.shift 1 (backToLeading s2.b.buf (segmentEnd s2.b)) else s2.b).late k := by
              split
              · rw [show (s2.late k).b = s2.b.late k from rfl, shift_late]
              · rfl
            rw [h1]
            generalize (if backToLeading s2.b.buf (segmentEnd s2.b) > 1 then s2.b.shift 1 (backToLeading s2.b.buf (segmentEnd s2.b)) else s2.b) = b3
            rcases readMore_pair k b3 with h | ⟨⟨j, h⟩, h1, h2⟩
            · rw [h]
              rcases b3.readMore with ⟨b4, m | er | _ | _⟩
              · simp only
                by_cases c4 : m = 0
                · simp only [c4, if_true]; exact .inl rfl
                · simp only [c4, if_false]; exact ih _ _
              all_goals exact .inl rfl
            · rw [h2]
              rcases hy : (b3.late k).readMore with ⟨b4, r⟩
              rw [hy] at h
              simp only at h
              subst h
              exact .inr ⟨⟨j, rfl⟩, by simp, rfl⟩
          all_goals exact .inl rfl
    · simp only
      rcases w.writeAll v with ⟨w1, _ | kind⟩ <;> exact .inl rfl

end RJ

end Verif.RJiter
