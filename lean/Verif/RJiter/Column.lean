import Verif.RJiter.PropsErr

/-!
# The line and the column kept for the bytes that were shifted out

The calls on arrays and objects keep a structural character in the buffer while the space behind it is shifted out. The column that is kept is
then one too large, if there is a newline in the space.
-/

namespace Verif.RJiter

open Buffer RJ Jiter

/-- `p` is the right line and column. `p'` has the same line, and the same column or (with `a`) one more. -/
def Near (a : Bool) (p p' : Nat × Nat) : Prop := p'.1 = p.1 ∧ (p'.2 = p.2 ∨ (a = true ∧ p'.2 = p.2 + 1))

theorem Near.refl (a : Bool) (p : Nat × Nat) : Near a p p := ⟨rfl, .inl rfl⟩

theorem Near.step {a : Bool} {p p' : Nat × Nat} (h : Near a p p') (c : Byte) : Near a (advance p c) (advance p' c) := by
  obtain ⟨h1, h2⟩ := h
  by_cases hc : c = 10
  · simp only [advance, hc, if_true]; exact ⟨by simp [h1], .inl rfl⟩
  · simp only [advance, hc, if_false]
    exact ⟨h1, by rcases h2 with h2 | ⟨ha, h2⟩ <;> simp [*]⟩

theorem Near.fold {a : Bool} {p p' : Nat × Nat} (h : Near a p p') (l : Bytes) : Near a (l.foldl advance p) (l.foldl advance p') := by
  induction l generalizing p p' with
  | nil => exact h
  | cons c l ih => exact ih (h.step c)

/-- A byte that is no newline comes later. -/
theorem Near.late {p p' : Nat × Nat} (h : Near true p p') {q : Byte} (hq : q ≠ 10) (m : Bytes) :
    Near true ((q :: m).foldl advance p) ((m ++ [q]).foldl advance p') := by
  induction m generalizing p p' with
  | nil => exact h.step q
  | cons c m ih =>
    by_cases hc : c = 10
    · subst hc
      obtain ⟨h1, _⟩ := h
      have e : advance p' 10 = advance (advance p q) 10 := by simp [advance, hq, h1]
      simp only [List.foldl_cons, List.cons_append, List.foldl_append, List.foldl_nil, e]
      generalize List.foldl advance (advance (advance p q) 10) m = x
      simp only [advance, hq, if_false]
      exact ⟨rfl, .inr ⟨rfl, rfl⟩⟩
    · have e : advance (advance p q) c = advance (advance p c) q := by simp [advance, hq, hc]
      have := ih (h.step c)
      simpa only [List.foldl_cons, List.cons_append, e] using this

/-- Shifts and reads. A shift that keeps the first byte is possible only with `a`, and if this byte is no newline. -/
inductive ShiftSteps (a : Bool) : Buffer → Buffer → Prop where
  | refl (b : Buffer) : ShiftSteps a b b
  | shift (b : Buffer) (f : Nat) : ShiftSteps a b (b.shift 0 f)
  | keep (b : Buffer) (f : Nat) (q : Byte) (ha : a = true) (hq : b.valid.head? = some q) (h : q ≠ 10) (hf : 1 ≤ f) : ShiftSteps a b (b.shift 1 f)
  | read (b : Buffer) : ShiftSteps a b b.readMore.1
  | trans {b c d : Buffer} (h1 : ShiftSteps a b c) (h2 : ShiftSteps a c d) : ShiftSteps a b d

/-- The text is `o`, the first byte of the buffer, `m`, the rest of the buffer, and what is to be read. `o` and `m` have been shifted out. -/
structure Kept (a : Bool) (t : Bytes) (b : Buffer) : Prop where
  ok : b.nBytes ≤ b.buf.length
  split : ∃ o m p, t = o ++ (b.valid.take 1 ++ m ++ b.valid.drop 1) ++ b.reader.pending ∧ (m ≠ [] → a = true ∧ ∃ q, b.valid.head? = some q ∧ q ≠ 10) ∧
    b.nShifted = o.length + m.length ∧ Near a (o.foldl advance (0, 0)) p ∧ (b.line, b.column) = m.foldl advance p

theorem shift_zero (b : Buffer) (h : b.nBytes ≤ b.buf.length) (f : Nat) : (b.shift 0 f).nBytes ≤ (b.shift 0 f).buf.length ∧
    (b.shift 0 f).reader = b.reader ∧ (b.shift 0 f).nShifted = b.nShifted + (b.valid.take f).length ∧
    ((b.shift 0 f).line, (b.shift 0 f).column) = (b.valid.take f).foldl advance (b.line, b.column) ∧ (b.shift 0 f).valid = b.valid.drop f := by
  obtain ⟨h1, _, h3, h4, h5, _⟩ := shift_counts b h 0 f
  refine ⟨h1, h3, by simpa using h4, by simpa using h5, ?_⟩
  simpa using (b.shift_spec h (Nat.zero_le f)).1

theorem ShiftSteps.kept {a : Bool} {t : Bytes} {b b' : Buffer} (h : ShiftSteps a b b') (hk : Kept a t b) : Kept a t b' := by
  induction h with
  | refl b => exact hk
  | trans _ _ ih1 ih2 => exact ih2 (ih1 hk)
  | shift b f =>
    obtain ⟨hok, o, m, p, e1, e2, e3, e4, e5⟩ := hk
    obtain ⟨h1, h2, h3, h4, h5⟩ := shift_zero b hok f
    cases f with
    | zero =>
      refine ⟨h1, o, m, p, ?_, ?_, ?_, e4, ?_⟩
      · rw [h5, h2]; simpa using e1
      · rw [h5]; simpa using e2
      · rw [h3]; simpa using e3
      · rw [h4]; simpa using e5
    | succ f =>
      cases hv : b.valid with
      | nil =>
        rw [hv] at e1 e2 h3 h4 h5
        refine ⟨h1, o, m, p, ?_, ?_, ?_, e4, ?_⟩
        · rw [h5, h2]; simpa using e1
        · rw [h5]; simpa using e2
        · rw [h3]; simpa using e3
        · rw [h4]; simpa using e5
      | cons q y =>
        rw [hv] at e1 e2 h3 h4 h5
        refine ⟨h1, o ++ q :: m ++ y.take f, [], (y.take f).foldl advance ((m ++ [q]).foldl advance p), ?_, by simp, ?_, ?_, ?_⟩
        · rw [h5, h2, e1]
          simp only [List.take_succ_cons, List.take_zero, List.drop_succ_cons, List.drop_zero, List.append_nil, List.take_append_drop,
            List.append_assoc, List.cons_append, List.nil_append]
        · rw [h3, e3]; simp; omega
        · rw [List.foldl_append]
          apply Near.fold
          rw [List.foldl_append]
          by_cases hm : m = []
          · subst hm; simpa using e4.step q
          · obtain ⟨ha, q', hq, hne⟩ := e2 hm
            simp only [List.head?_cons, Option.some.injEq] at hq
            subst hq ha
            exact e4.late hne m
        · rw [h4, e5]; simp [List.foldl_append]
  | keep b f q ha hq hne hf =>
    obtain ⟨hok, o, m, p, e1, e2, e3, e4, e5⟩ := hk
    obtain ⟨h1, _, h3, h4, h5, _⟩ := shift_counts b hok 1 f
    have hs := (b.shift_spec hok hf).1
    cases hv : b.valid with
    | nil => rw [hv] at hq; simp at hq
    | cons q' y =>
      rw [hv] at hq
      simp only [List.head?_cons, Option.some.injEq] at hq
      subst hq
      obtain ⟨f, rfl⟩ : ∃ g, f = g + 1 := ⟨f - 1, by omega⟩
      rw [hv] at e1 e2 h4 h5 hs
      simp only [List.take_succ_cons, List.take_zero, List.drop_succ_cons, List.drop_zero, List.cons_append, List.nil_append] at hs h4 h5 e1
      refine ⟨h1, o, m ++ y.take f, p, ?_, ?_, ?_, e4, ?_⟩
      · rw [hs, h3, e1]; simp
      · intro _; exact ⟨ha, q', by rw [hs]; rfl, hne⟩
      · rw [h4, e3, List.length_append]; omega
      · rw [h5, e5, List.foldl_append]
  | read b =>
    obtain ⟨hok, o, m, p, e1, e2, e3, e4, e5⟩ := hk
    rcases b.readMore_cases hok with ⟨_, e⟩ | ⟨_, e⟩ | ⟨k, r', hlt, hr, e⟩ | ⟨b', bs, e, hb, hv, hn, ho, hl', hp, hs', hcl, h1, h2, h3, _⟩
    · rw [e]; exact ⟨hok, o, m, p, e1, e2, e3, e4, e5⟩
    · rw [e]; exact ⟨hok, o, m, p, e1, e2, e3, e4, e5⟩
    · rw [e]
      refine ⟨hok, o, m, p, ?_, e2, e3, e4, e5⟩
      rw [hr] at e1; exact e1
    · rw [e]
      refine ⟨ho, o, m, p, ?_, ?_, by simp only; rw [h1, e3], e4, by simp only; rw [h2, h3, e5]⟩
      · simp only; rw [hv, e1, hp]
        cases hb0 : b.valid with
        | nil =>
          have hm : m = [] := Classical.byContradiction fun hm => by
            obtain ⟨_, q, hq, _⟩ := e2 hm
            rw [hb0] at hq; simp at hq
          subst hm
          simp only [List.take_nil, List.drop_nil, List.nil_append, List.append_nil]
          rw [List.take_append_drop, List.append_assoc]
        | cons q y => simp
      · intro hm
        obtain ⟨ha, q, hq, hne⟩ := e2 hm
        refine ⟨ha, q, ?_, hne⟩
        simp only; rw [hv]
        cases hb0 : b.valid with
        | nil => rw [hb0] at hq; simp at hq
        | cons q y => rw [hb0] at hq; simpa using hq

/-! ### Buffer functions -/

theorem ShiftSteps.ok {a : Bool} {b b' : Buffer} (h : ShiftSteps a b b') (hok : b.nBytes ≤ b.buf.length) : b'.nBytes ≤ b'.buf.length := by
  induction h with
  | refl b => exact hok
  | trans _ _ ih1 ih2 => exact ih2 (ih1 hok)
  | shift b f => exact (shift_counts b hok 0 f).1
  | keep b f q _ _ _ _ => exact (shift_counts b hok 1 f).1
  | read b =>
    rcases b.readMore_cases hok with ⟨_, e⟩ | ⟨_, e⟩ | ⟨k, r', _, _, e⟩ | ⟨b', bs, e, _, _, _, ho, _⟩
    · rw [e]; exact hok
    · rw [e]; exact hok
    · rw [e]; exact hok
    · rw [e]; exact ho

theorem collectWhileLoop_steps (a : Bool) (p : Byte → Bool) (st : Nat) (al : Bool) : ∀ (fuel : Nat) (b : Buffer) (i c : Nat) (sh : Bool),
    ShiftSteps a b (collectWhileLoop p st al fuel b i c sh).1 := by
  intro fuel
  induction fuel with
  | zero => intro b i c sh; exact .refl b
  | succ fuel ih =>
    intro b i c sh
    simp only [collectWhileLoop]
    split
    · exact .refl b
    · split
      · split
        · exact .refl b
        · have h1 := (ShiftSteps.shift (a := a) b st).trans (.read _)
          split <;> rename_i heq <;> rw [heq] at h1
          · split
            · exact h1
            · exact h1.trans (ih _ _ _ _)
          all_goals exact h1
      · have h1 := ShiftSteps.read (a := a) b
        split <;> rename_i heq <;> rw [heq] at h1
        · split
          · exact h1
          · exact h1.trans (ih _ _ _ _)
        all_goals exact h1

theorem collectWhile_steps (a : Bool) (fuel : Nat) (b : Buffer) (p : Byte → Bool) (st : Nat) (al : Bool) :
    ShiftSteps a b (b.collectWhile fuel p st al).1 := collectWhileLoop_steps _ _ _ _ _ _ _ _ _

/-- The first byte stays. -/
theorem readMore_front {b : Buffer} (hok : b.nBytes ≤ b.buf.length) {q : Byte} (hq : b.valid.head? = some q) :
    b.readMore.1.nBytes ≤ b.readMore.1.buf.length ∧ b.readMore.1.valid.head? = some q := by
  rcases b.readMore_cases hok with ⟨_, e⟩ | ⟨_, e⟩ | ⟨k, r', hlt, hr, e⟩ | ⟨b', bs, e, hb, hv, hn, ho, hl', hp, hs', hcl, h1, h2, h3, _⟩
  · rw [e]; exact ⟨hok, hq⟩
  · rw [e]; exact ⟨hok, hq⟩
  · rw [e]; exact ⟨hok, hq⟩
  · rw [e]
    refine ⟨ho, ?_⟩
    simp only; rw [hv]
    cases hb0 : b.valid with
    | nil => rw [hb0] at hq; simp at hq
    | cons q y => rw [hb0] at hq; simpa using hq

theorem collectWhileLoop_front (p : Byte → Bool) (st : Nat) {q : Byte} : ∀ (fuel : Nat) (b : Buffer) (i c : Nat) (sh : Bool),
    b.nBytes ≤ b.buf.length → b.valid.head? = some q →
    (collectWhileLoop p st false fuel b i c sh).1.nBytes ≤ (collectWhileLoop p st false fuel b i c sh).1.buf.length ∧
    (collectWhileLoop p st false fuel b i c sh).1.valid.head? = some q := by
  intro fuel
  induction fuel with
  | zero => intro b i c sh hok hq; exact ⟨hok, hq⟩
  | succ fuel ih =>
    intro b i c sh hok hq
    simp only [collectWhileLoop]
    split
    · exact ⟨hok, hq⟩
    · split
      · simp only [Bool.not_false, Bool.true_or, if_true]; exact ⟨hok, hq⟩
      · have h1 := readMore_front hok hq
        split <;> rename_i heq <;> rw [heq] at h1
        · split
          · exact h1
          · exact ih _ _ _ _ h1.1 h1.2
        all_goals exact h1

theorem shift_one_head {b : Buffer} (hok : b.nBytes ≤ b.buf.length) {q : Byte} (hq : b.valid.head? = some q) {f : Nat} (hf : 1 ≤ f) :
    (b.shift 1 f).nBytes ≤ (b.shift 1 f).buf.length ∧ (b.shift 1 f).valid.head? = some q := by
  refine ⟨(shift_counts b hok 1 f).1, ?_⟩
  rw [(b.shift_spec hok hf).1]
  cases hb0 : b.valid with
  | nil => rw [hb0] at hq; simp at hq
  | cons q y => rw [hb0] at hq; simpa using hq

theorem skipSpacesLoop_steps (a : Bool) (fuel0 : Nat) : ∀ (fuel : Nat) (b : Buffer), ShiftSteps a b (skipSpacesLoop fuel0 0 fuel b).1 := by
  intro fuel
  induction fuel with
  | zero => intro b; exact .refl b
  | succ fuel ih =>
    intro b
    simp only [skipSpacesLoop]
    have h1 := collectWhile_steps a fuel0 b isAsciiWs 0 false
    split <;> rename_i heq <;> rw [heq] at h1
    · simp only
      split
      · exact h1.trans (.shift _ _)
      · exact h1
    · split
      · exact (h1.trans (.shift _ _)).trans (ih _)
      · exact h1
    all_goals exact h1

theorem skipSpacesLoop_keep (fuel0 : Nat) {q : Byte} (hne : q ≠ 10) : ∀ (fuel : Nat) (b : Buffer), b.nBytes ≤ b.buf.length →
    b.valid.head? = some q → ShiftSteps true b (skipSpacesLoop fuel0 1 fuel b).1 := by
  intro fuel
  induction fuel with
  | zero => intro b _ _; exact .refl b
  | succ fuel ih =>
    intro b hok hq
    simp only [skipSpacesLoop]
    have h1 := collectWhile_steps true fuel0 b isAsciiWs 1 false
    have h2 : (b.collectWhile fuel0 isAsciiWs 1 false).1.nBytes ≤ (b.collectWhile fuel0 isAsciiWs 1 false).1.buf.length ∧
        (b.collectWhile fuel0 isAsciiWs 1 false).1.valid.head? = some q := collectWhileLoop_front _ _ _ _ _ _ _ hok hq
    split <;> rename_i heq <;> rw [heq] at h1 h2
    · simp only
      split
      · exact h1.trans (.keep _ _ q rfl h2.2 hne (by omega))
      · exact h1
    · rename_i b1 _
      split
      · have hn : 1 ≤ b1.nBytes := by
          have := h2.2
          have hl := valid_length h2.1
          cases hv : b1.valid with
          | nil => simp only at this; rw [hv] at this; simp at this
          | cons x y => simp only at hl; rw [hv] at hl; simp at hl; omega
        have h3 := shift_one_head h2.1 h2.2 hn
        exact (h1.trans (.keep _ _ q rfl h2.2 hne hn)).trans (ih _ h3.1 h3.2)
      · exact h1
    all_goals exact h1

theorem collectCountLoop_steps (a : Bool) (n : Nat) (al : Bool) : ∀ (fuel : Nat) (b : Buffer) (t c : Nat) (sh : Bool),
    ShiftSteps a b (collectCountLoop n al fuel b t c sh).1 := by
  intro fuel
  induction fuel with
  | zero => intro b t c sh; exact .refl b
  | succ fuel ih =>
    intro b t c sh
    simp only [collectCountLoop]
    split
    · exact .refl b
    · split
      · split
        · exact .refl b
        · split
          · exact .refl b
          · have h1 := (ShiftSteps.shift (a := a) b c).trans (.read _)
            split <;> rename_i heq <;> rw [heq] at h1
            · split
              · exact h1
              · exact h1.trans (ih _ _ _ _)
            all_goals exact h1
      · have h1 := ShiftSteps.read (a := a) b
        split <;> rename_i heq <;> rw [heq] at h1
        · split
          · exact h1
          · exact h1.trans (ih _ _ _ _)
        all_goals exact h1

theorem skipNLoop_steps (a : Bool) : ∀ (fuel : Nat) (b : Buffer) (r c t : Nat), ShiftSteps a b (skipNLoop fuel b r c t).1 := by
  intro fuel
  induction fuel with
  | zero => intro b r c t; exact .refl b
  | succ fuel ih =>
    intro b r c t
    simp only [skipNLoop]
    split
    · exact .refl b
    · split
      · exact .refl b
      · have h0 : ShiftSteps a b (if (b.nBytes == b.buf.length) = true then b.shift 0 (c + (b.nBytes - c)) else b) := by
          split
          · exact .shift _ _
          · exact .refl b
        have h1 := h0.trans (.read _)
        split <;> rename_i heq <;> rw [heq] at h1
        · split
          · exact h1
          · exact h1.trans (ih _ _ _ _)
        all_goals exact h1

/-! ### The calls -/

namespace RJ

theorem skipSpacesFeeding_steps (a : Bool) (fuel : Nat) (s : RJ) (hok : s.b.nBytes ≤ s.b.buf.length) (jp : Nat) (tok : Option Byte)
    (ht : ∀ t, tok = some t → a = true ∧ t ≠ 10) : ShiftSteps a s.b (s.skipSpacesFeeding fuel jp tok).1.b := by
  have hd : ∀ b, ShiftSteps a s.b b → ShiftSteps a s.b (if isChanged s.b b then (({ s with b := b } : RJ).refresh, (Res.ok () : Res Unit))
      else ({ s with b := b }, .ok ())).1.b := by
    intro b hb; split <;> exact hb
  have h0 : ShiftSteps a s.b (if jp > 0 then s.b.shift 0 jp else s.b) := by
    split
    · exact .shift _ _
    · exact .refl _
  simp only [skipSpacesFeeding]
  have h1' : ShiftSteps a s.b ((if jp > 0 then s.b.shift 0 jp else s.b).skipSpaces fuel 0).1 := h0.trans (skipSpacesLoop_steps a fuel _ _)
  split <;> rename_i heq <;> rw [heq] at h1'
  · split
    · exact hd _ h1'
    · rename_i b1 _ t
      obtain ⟨rfl, htn⟩ := ht t rfl
      have h2 : ShiftSteps true s.b (if b1.nBytes ≤ 0 then b1.readMore else (b1, .ok 0)).1 := by
        split
        · exact h1'.trans (.read _)
        · exact h1'
      split <;> rename_i heq2 <;> rw [heq2] at h2
      · split
        · rename_i b2 _ hb
          have hok2 : b2.nBytes ≤ b2.buf.length := (h2.ok hok)
          have hq : b2.valid.head? = some t := by
            rw [Buffer.valid, List.head?_take, if_neg (by omega), List.head?_eq_getElem?]; exact hb.2
          have h3' : ShiftSteps true s.b (b2.skipSpaces fuel 1).1 := h2.trans (skipSpacesLoop_keep fuel htn _ _ hok2 hq)
          split <;> rename_i heq3 <;> rw [heq3] at h3'
          · exact hd _ h3'
          all_goals exact h3'
        · exact hd _ h2
      all_goals exact h2
  all_goals exact h1'

theorem retryLoop_steps (a : Bool) {α : Type} (f : JFn α) (eager : Bool) : ∀ (fuel : Nat) (s : RJ),
    ShiftSteps a s.b (retryLoop f eager fuel s).1.b := by
  intro fuel
  induction fuel with
  | zero => intro s; exact .refl _
  | succ fuel ih =>
    intro s
    have ih' : ∀ s' : RJ, ShiftSteps a s.b s'.b → ShiftSteps a s.b (retryLoop f eager fuel s').1.b := fun s' h => h.trans (ih s')
    simp only [retryLoop, call]
    have h1 := ShiftSteps.read (a := a) s.b
    split <;> rename_i heq <;> simp only [Prod.mk.injEq] at heq <;> obtain ⟨rfl, _⟩ := heq
    · split
      · exact .refl _
      · split <;> rename_i heq <;> (simp only at heq; rw [heq] at h1)
        · split
          · exact h1
          · exact ih' _ h1
        all_goals exact h1
    · split
      · exact .refl _
      · split <;> rename_i heq <;> (simp only at heq; rw [heq] at h1)
        · split
          · exact h1
          · exact ih' _ h1
        all_goals exact h1

theorem loopUntilSuccess_steps (a : Bool) {α : Type} (fuel : Nat) (s : RJ) (hok : s.b.nBytes ≤ s.b.buf.length) (f : JFn α) (tok : Option Byte) (eager : Bool)
    (ht : ∀ t, tok = some t → a = true ∧ t ≠ 10) :
    ShiftSteps a s.b (s.loopUntilSuccess fuel f tok eager).1.b := by
  have h1 : ∀ s1 : RJ, s1.b = s.b → ShiftSteps a s.b (match s1.skipSpacesFeeding fuel s.jidx tok with
      | (s2, .ok ()) => retryLoop f eager fuel s2
      | (s2, .err e) => (s2, .err e)
      | (s2, .panic) => (s2, .panic)
      | (s2, .diverge) => (s2, .diverge)).1.b := by
    intro s1 hb
    have h2 := skipSpacesFeeding_steps a fuel s1 (by rw [hb]; exact hok) s.jidx tok ht
    rw [hb] at h2
    split <;> rename_i heq <;> rw [heq] at h2
    · exact h2.trans (retryLoop_steps a _ _ _ _)
    all_goals exact h2
  simp only [loopUntilSuccess, call]
  split <;> rename_i heq <;> simp only [Prod.mk.injEq] at heq <;> obtain ⟨rfl, _⟩ := heq
  · split
    · exact .refl _
    · exact h1 _ rfl
  · exact h1 _ rfl

theorem finishLoop_steps (a : Bool) : ∀ (fuel : Nat) (s : RJ), ShiftSteps a s.b (finishLoop fuel s).1.b := by
  intro fuel
  induction fuel with
  | zero => intro s; exact .refl _
  | succ fuel ih =>
    intro s
    have ih' : ∀ s' : RJ, ShiftSteps a s.b s'.b → ShiftSteps a s.b (finishLoop fuel s').1.b := fun s' h => h.trans (ih s')
    simp only [finishLoop, call]
    split <;> rename_i heq <;> simp only [Prod.mk.injEq] at heq <;> obtain ⟨rfl, _⟩ := heq
    · exact .refl _
    · rename_i s1 _
      have h1 : ShiftSteps a s.b (if s.jidx + (Jiter.finish s.jdata).1 < s.b.buf.length then s.b.readMore else (s.b, .ok 1)).1 := by
        split
        · exact .read _
        · exact .refl _
      split <;> rename_i heq <;> (simp only at heq; rw [heq] at h1)
      · split
        · exact h1
        · exact ih' _ (h1.trans (.shift _ _))
      all_goals exact h1

theorem lookaheadEnd_steps (a : Bool) (s : RJ) (b1 : Buffer) (x e : Nat) (h : ShiftSteps a s.b b1) :
    ShiftSteps a s.b (s.lookaheadEnd b1 x e).1.b := by
  simp only [lookaheadEnd]
  split
  · split
    · split
      · exact h.trans (.shift _ _)
      · split <;> exact h.trans (.shift _ _)
    · split <;> exact h
  · split <;> exact h

theorem lookaheadWhile_steps (a : Bool) (fuel : Nat) (s : RJ) (p : Byte → Bool) : ShiftSteps a s.b (s.lookaheadWhile fuel p).1.b := by
  have h1 := collectWhile_steps a fuel s.b p s.jidx true
  simp only [lookaheadWhile]
  split <;> rename_i heq <;> rw [heq] at h1
  · exact lookaheadEnd_steps a _ _ _ _ h1
  all_goals exact h1

theorem lookaheadN_steps (a : Bool) (fuel : Nat) (s : RJ) (n : Nat) : ShiftSteps a s.b (s.lookaheadN fuel n).1.b := by
  have h1 : ShiftSteps a s.b (s.b.collectCount fuel n s.jidx true).1 := collectCountLoop_steps a _ _ _ _ _ _ _
  simp only [lookaheadN]
  split <;> rename_i heq <;> rw [heq] at h1
  · exact lookaheadEnd_steps a _ _ _ _ h1
  all_goals exact h1

theorem skipNBytes_steps (a : Bool) (fuel : Nat) (s : RJ) (n : Nat) : ShiftSteps a s.b (s.skipNBytes fuel n).1.b := by
  have h1 : ShiftSteps a s.b (s.b.skipN fuel n s.jidx).1 := skipNLoop_steps a _ _ _ _ _
  simp only [skipNBytes]
  split <;> rename_i heq <;> rw [heq] at h1
  · exact h1.trans (.shift _ _)
  all_goals exact h1

theorem knownSkipToken_steps (a : Bool) (fuel : Nat) (s : RJ) (t : Bytes) : ShiftSteps a s.b (s.knownSkipToken fuel t).1.b := by
  have h1 := lookaheadN_steps a fuel s t.length
  simp only [knownSkipToken]
  split <;> rename_i heq <;> rw [heq] at h1
  · split
    · rename_i s1 _ _
      have h2 := h1.trans (skipNBytes_steps a fuel s1 t.length)
      split <;> rename_i heq2 <;> rw [heq2] at h2 <;> exact h2
    · exact h1
  all_goals exact h1

end RJ


/-- The calls that do not keep a byte: those that are not on arrays, objects or long strings. -/
def Op.Flat : Op → Prop
  | .knownArray | .knownObject | .nextArray | .arrayStep | .nextKey | .nextKeyBytes | .nextObject | .nextObjectBytes => False
  | .writeLongBytes _ | .writeLongStr _ => False
  | _ => True

/-- The calls that keep a structural character at most: those that are not on long strings. -/
def Op.Short : Op → Prop
  | .writeLongBytes _ | .writeLongStr _ => False
  | _ => True

theorem Op.run_steps (a : Bool) (op : Op) (h : if a then op.Short else op.Flat) (fuel : Nat) (s : RJ) (hok : s.b.nBytes ≤ s.b.buf.length) :
    ShiftSteps a s.b (op.run fuel s).1.b := by
  cases a <;> cases op <;> simp only [Op.Short, Op.Flat, if_true, Bool.false_eq_true, if_false] at h <;> first
    | exact RJ.finishLoop_steps _ _ _
    | exact RJ.lookaheadWhile_steps _ _ _ _
    | exact RJ.lookaheadN_steps _ _ _ _
    | exact RJ.skipNBytes_steps _ _ _ _
    | exact RJ.knownSkipToken_steps _ _ _ _
    | exact RJ.loopUntilSuccess_steps _ _ _ hok _ _ _ (by intro t ht; first | (cases ht; done) | (injection ht with ht; subst ht; exact ⟨rfl, by decide⟩))

theorem findLoop_behind : ∀ (d p : Bytes) (k : Nat), d.length ≤ k →
    findLoop d p.length (p.length + k) (1 + (lineCol p).1) (p.length - (lineCol p).2) = (1 + (lineCol (p ++ d)).1, (lineCol (p ++ d)).2) := by
  intro d
  induction d with
  | nil =>
    intro p k _
    have hle := lineCol_le p
    simp only [findLoop, List.append_nil, Prod.mk.injEq, true_and]
    omega
  | cons c d ih =>
    intro p k h
    have hle := lineCol_le p
    have hs := lineCol_snoc p c
    have e1 : (if c = 10 then 1 + (lineCol p).1 + 1 else 1 + (lineCol p).1) = 1 + (lineCol (p ++ [c])).1 := by
      rw [hs]; split <;> simp <;> omega
    have e2 : (if c = 10 then p.length + 1 else p.length - (lineCol p).2) = (p ++ [c]).length - (lineCol (p ++ [c])).2 := by
      rw [hs, List.length_append, List.length_singleton]; split <;> simp
    simp only [findLoop]
    rw [e1, e2]
    simp only [List.length_cons] at h
    rw [if_neg (by omega)]
    have := ih (p ++ [c]) (k - 1) (by omega)
    rw [List.append_assoc, List.singleton_append] at this
    simp only [List.length_append, List.length_singleton] at this ⊢
    rw [show p.length + k = p.length + 1 + (k - 1) by omega]
    exact this

/-- Behind the end of the data, the position is the one of the last byte. -/
theorem linePosition_any (d : Bytes) (k : Nat) : linePosition d k = lineColAt d k := by
  by_cases h : k < d.length
  · exact linePosition_spec d k h
  · have := findLoop_behind d [] k (by omega)
    rw [lineColAt, List.take_of_length_le (by omega)]
    simpa [lineCol, linePosition] using this

theorem lineCol_append (x y : Bytes) : (lineCol (x ++ y)).1 = (lineCol x).1 + (lineCol y).1 ∧
    (10 ∉ y → (lineCol (x ++ y)).2 = (lineCol x).2 + y.length) := by
  refine ⟨by simp [lineCol], fun h => ?_⟩
  rw [← lineCol_foldl, ← lineCol_foldl, List.foldl_append]
  generalize List.foldl advance (0, 0) x = p
  induction y generalizing p with
  | nil => rfl
  | cons c y ih =>
    simp only [List.mem_cons, not_or] at h
    rw [List.foldl_cons, ih h.2]
    simp only [advance, if_neg (fun e : c = 10 => h.1 e.symm), List.length_cons]
    omega

theorem kept_new (a : Bool) (input : Reader) (buf : Bytes) : Kept a input.pending (RJ.new input buf).b :=
  ⟨Nat.zero_le _, [], [], (0, 0), by simp [RJ.new, Buffer.new, Buffer.valid], by simp, by simp [RJ.new, Buffer.new], .refl _ _,
    by simp [RJ.new, Buffer.new]⟩

theorem History.kept {a : Bool} {t : Bytes} {s s' : RJ} {ops : List Op} (hh : History s ops s') (hops : ∀ op ∈ ops, if a then op.Short else op.Flat)
    (hk : Kept a t s.b) : Kept a t s'.b := by
  induction hh with
  | nil s => exact hk
  | @cons s _ _ _ _ fuel _ hf hrun _ _ ih =>
    refine ih (fun op h => hops op (by simp [h])) ?_
    have := (Op.run_steps a _ (hops _ (List.mem_cons_self ..)) fuel s hk.ok).kept hk
    rw [hrun] at this; exact this

/-- At the start of the buffer. -/
theorem Kept.near {a : Bool} {t : Bytes} {b : Buffer} (h : Kept a t b) (hd : t.drop b.nShifted = b.valid ++ b.reader.pending) :
    Near a (lineCol (t.take b.nShifted)) (b.line, b.column) := by
  obtain ⟨_, o, m, p, e1, e2, e3, e4, e5⟩ := h
  rw [← lineCol_foldl]
  by_cases hm : m = []
  · subst hm
    have : t.take b.nShifted = o := by
      rw [e1, e3, List.append_assoc]; simp
    rw [this, e5]; exact e4
  · obtain ⟨rfl, q, hq, hne⟩ := e2 hm
    cases hv : b.valid with
    | nil => rw [hv] at hq; simp at hq
    | cons q' y =>
      rw [hv] at hq e1 hd
      simp only [List.head?_cons, Option.some.injEq] at hq
      subst hq
      have hml : m = m.dropLast ++ [m.getLast hm] := (List.dropLast_concat_getLast hm).symm
      generalize m.dropLast = m' at hml
      generalize m.getLast hm = x at hml
      subst hml
      simp only [List.take_succ_cons, List.take_zero, List.drop_succ_cons, List.drop_zero, List.cons_append, List.nil_append,
        List.append_assoc] at e1 hd
      have e1' : t = (o ++ q' :: m') ++ (x :: (y ++ b.reader.pending)) := by rw [e1]; simp
      have hlen : b.nShifted = (o ++ q' :: m').length := by rw [e3]; simp
      have hx : x = q' := by
        rw [e1', hlen, List.drop_left] at hd
        simp only [List.cons.injEq] at hd; exact hd.1
      subst hx
      have : t.take b.nShifted = o ++ x :: m' := by rw [e1', hlen, List.take_left]
      rw [this, e5, List.foldl_append]
      exact e4.late hne m'

end Verif.RJiter
