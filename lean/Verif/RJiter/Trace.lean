import Verif.RJiter.Ops
import Verif.RJiter.BufferLemmas

/-!
# Every call is a sequence of `shift_buffer` and `read_more`

This holds whatever the outcome of the call is, in particular after errors.
-/

namespace Verif.RJiter

open Buffer

/-- `b'` results from `b` by shifts and reads; `out` are the bytes that were shifted out, in this order. -/
inductive Via : Buffer → Buffer → Bytes → Prop where
  | refl (b : Buffer) : Via b b []
  | shift (b : Buffer) (t f : Nat) : Via b (b.shift t f) ((b.valid.take f).drop t)
  | read (b : Buffer) : Via b b.readMore.1 []
  | trans {a b c : Buffer} {o1 o2 : Bytes} (h1 : Via a b o1) (h2 : Via b c o2) : Via a c (o1 ++ o2)

/-- Some bytes were shifted out. -/
def Reach (b b' : Buffer) : Prop := ∃ out, Via b b' out

theorem Reach.refl (b : Buffer) : Reach b b := ⟨_, .refl b⟩
theorem Reach.shift (b : Buffer) (t f : Nat) : Reach b (b.shift t f) := ⟨_, .shift b t f⟩
theorem Reach.read (b : Buffer) : Reach b b.readMore.1 := ⟨_, .read b⟩
theorem Reach.trans {a b c : Buffer} (h1 : Reach a b) (h2 : Reach b c) : Reach a c := by
  obtain ⟨o1, h1⟩ := h1
  obtain ⟨o2, h2⟩ := h2
  exact ⟨_, h1.trans h2⟩

/-- What a shift does to the counters, without any assumption on the positions. -/
theorem shift_counts (b : Buffer) (h : b.nBytes ≤ b.buf.length) (t f : Nat) :
    (b.shift t f).nBytes ≤ (b.shift t f).buf.length ∧ (b.shift t f).buf.length = b.buf.length ∧
    (b.shift t f).reader = b.reader ∧
    (b.shift t f).nShifted = b.nShifted + ((b.valid.take f).drop t).length ∧
    ((b.shift t f).line, (b.shift t f).column) = ((b.valid.take f).drop t).foldl advance (b.line, b.column) ∧
    ((b.valid.take f).drop t ++ (b.shift t f).valid).Perm b.valid := by
  have hv := valid_length h
  by_cases htf : t < f ∧ t < b.nBytes
  · obtain ⟨e1, _, e3, e4, e5, e6, e7⟩ := b.shift_spec h (Nat.le_of_lt htf.1)
    have hmin : b.valid.take (min f b.nBytes) = b.valid.take f := by
      by_cases hf : f ≤ b.nBytes
      · rw [Nat.min_eq_left hf]
      · rw [Nat.min_eq_right (by omega), List.take_of_length_le (by omega), List.take_of_length_le (by omega)]
    rw [hmin] at e7
    refine ⟨e5, e4, e6, ?_, e7, ?_⟩
    · rw [e3]; simp; omega
    · rw [e1]
      have hsplit : b.valid = b.valid.take t ++ ((b.valid.take f).drop t ++ b.valid.drop f) := by
        have h1 : (b.valid.take f).take t ++ (b.valid.take f).drop t = b.valid.take f := List.take_append_drop _ _
        rw [List.take_take, Nat.min_eq_left (Nat.le_of_lt htf.1)] at h1
        rw [← List.append_assoc, h1, List.take_append_drop]
      conv => rhs; rw [hsplit]
      rw [← List.append_assoc, ← List.append_assoc]
      exact (List.perm_append_comm).append_right _
  · have hnil : (b.valid.take f).drop t = [] := by
      apply List.drop_eq_nil_of_le; simp; omega
    have hb : b.shift t f = b := by
      simp only [Buffer.shift]
      rw [if_neg (by omega), if_neg (by omega)]
    rw [hb, hnil]
    simp [h]

/-- The counters after any sequence of shifts and reads. -/
theorem Via.counts {b b' : Buffer} {out : Bytes} (h : Via b b' out) (hok : b.nBytes ≤ b.buf.length) :
    b'.nBytes ≤ b'.buf.length ∧ b'.buf.length = b.buf.length ∧ b'.nShifted = b.nShifted + out.length ∧
    (b'.line, b'.column) = out.foldl advance (b.line, b.column) ∧
    (out ++ (b'.valid ++ b'.reader.pending)).Perm (b.valid ++ b.reader.pending) ∧
    b'.reader.size ≤ b.reader.size := by
  induction h with
  | refl b => simp [hok]
  | shift b t f =>
    obtain ⟨h1, h2, h3, h4, h5, h6⟩ := shift_counts b hok t f
    refine ⟨h1, h2, h4, h5, ?_, by rw [h3]; exact Nat.le_refl _⟩
    rw [h3, ← List.append_assoc]
    exact h6.append_right _
  | read b =>
    rcases b.readMore_cases hok with ⟨_, e⟩ | ⟨_, e⟩ | ⟨q, r', hlt, hr, e⟩ |
      ⟨b', bs, e, hb, hv, hn, ho, hl', hp, hs', hcl, h1, h2, h3, _⟩
    · rw [e]; simp [hok]
    · rw [e]; simp [hok]
    · rw [e]
      refine ⟨hok, rfl, rfl, rfl, ?_, ?_⟩
      · rw [hr]; exact List.Perm.refl _
      · rw [hr]; simp [Reader.size]
    · rw [e]
      refine ⟨ho, hl', by simp [h1], by simp [h2, h3], ?_, by simp only; omega⟩
      rw [hv, hp]; simp
  | trans h1 h2 ih1 ih2 =>
    obtain ⟨a1, a2, a3, a4, a5, a6⟩ := ih1 hok
    obtain ⟨c1, c2, c3, c4, c5, c6⟩ := ih2 a1
    refine ⟨c1, c2.trans a2, by rw [c3, a3, List.length_append]; omega, ?_, ?_, Nat.le_trans c6 a6⟩
    · rw [c4, a4, List.foldl_append]
    · rw [List.append_assoc]
      exact (c5.append_left _).trans a5

/-! ### Buffer functions -/

theorem collectWhileLoop_reach (p : Byte → Bool) (st : Nat) (al : Bool) : ∀ (fuel : Nat) (b : Buffer) (i c : Nat) (sh : Bool),
    Reach b (collectWhileLoop p st al fuel b i c sh).1 := by
  intro fuel
  induction fuel with
  | zero => intro b i c sh; exact .refl b
  | succ fuel ih =>
    intro b i c sh
    simp only [collectWhileLoop]
    split
    · exact .refl b
    · split
      · split
        · exact .refl b
        · have h1 := (Reach.shift b 0 st).trans (.read _)
          split <;> rename_i heq <;> rw [heq] at h1
          · split
            · exact h1
            · exact h1.trans (ih _ _ _ _)
          all_goals exact h1
      · have h1 := Reach.read b
        split <;> rename_i heq <;> rw [heq] at h1
        · split
          · exact h1
          · exact h1.trans (ih _ _ _ _)
        all_goals exact h1

theorem collectWhile_reach (fuel : Nat) (b : Buffer) (p : Byte → Bool) (st : Nat) (al : Bool) :
    Reach b (b.collectWhile fuel p st al).1 := collectWhileLoop_reach _ _ _ _ _ _ _ _

theorem skipSpacesLoop_reach (fuel0 pos : Nat) : ∀ (fuel : Nat) (b : Buffer), Reach b (skipSpacesLoop fuel0 pos fuel b).1 := by
  intro fuel
  induction fuel with
  | zero => intro b; exact .refl b
  | succ fuel ih =>
    intro b
    simp only [skipSpacesLoop]
    have h1 := collectWhile_reach fuel0 b isAsciiWs pos false
    split <;> rename_i heq <;> rw [heq] at h1
    · simp only
      split
      · exact h1.trans (.shift _ _ _)
      · exact h1
    · split
      · exact (h1.trans (.shift _ _ _)).trans (ih _)
      · exact h1
    all_goals exact h1

theorem skipSpaces_reach (fuel : Nat) (b : Buffer) (pos : Nat) : Reach b (b.skipSpaces fuel pos).1 :=
  skipSpacesLoop_reach _ _ _ _

theorem collectCountLoop_reach (n : Nat) (al : Bool) : ∀ (fuel : Nat) (b : Buffer) (t c : Nat) (sh : Bool),
    Reach b (collectCountLoop n al fuel b t c sh).1 := by
  intro fuel
  induction fuel with
  | zero => intro b t c sh; exact .refl b
  | succ fuel ih =>
    intro b t c sh
    simp only [collectCountLoop]
    split
    · exact .refl b
    · split
      · split
        · exact .refl b
        · split
          · exact .refl b
          · have h1 := (Reach.shift b 0 c).trans (.read _)
            split <;> rename_i heq <;> rw [heq] at h1
            · split
              · exact h1
              · exact h1.trans (ih _ _ _ _)
            all_goals exact h1
      · have h1 := Reach.read b
        split <;> rename_i heq <;> rw [heq] at h1
        · split
          · exact h1
          · exact h1.trans (ih _ _ _ _)
        all_goals exact h1

theorem skipNLoop_reach : ∀ (fuel : Nat) (b : Buffer) (r c t : Nat), Reach b (skipNLoop fuel b r c t).1 := by
  intro fuel
  induction fuel with
  | zero => intro b r c t; exact .refl b
  | succ fuel ih =>
    intro b r c t
    simp only [skipNLoop]
    split
    · exact .refl b
    · split
      · exact .refl b
      · have h0 : Reach b (if (b.nBytes == b.buf.length) = true then b.shift 0 (c + (b.nBytes - c)) else b) := by
          split
          · exact .shift _ _ _
          · exact .refl b
        have h1 := h0.trans (.read _)
        split <;> rename_i heq <;> rw [heq] at h1
        · split
          · exact h1
          · exact h1.trans (ih _ _ _ _)
        all_goals exact h1

/-! ### The calls -/

namespace RJ

theorem skipSpacesFeeding_reach (fuel : Nat) (s : RJ) (jp : Nat) (tok : Option Byte) :
    Reach s.b (s.skipSpacesFeeding fuel jp tok).1.b := by
  have hd : ∀ b, Reach s.b b → Reach s.b (if isChanged s.b b then (({ s with b := b } : RJ).refresh, (Res.ok () : Res Unit))
      else ({ s with b := b }, .ok ())).1.b := by
    intro b hb; split <;> exact hb
  have h0 : Reach s.b (if jp > 0 then s.b.shift 0 jp else s.b) := by
    split
    · exact .shift _ _ _
    · exact .refl _
  simp only [skipSpacesFeeding]
  have h1 := h0.trans (skipSpaces_reach fuel _ 0)
  split <;> rename_i heq <;> rw [heq] at h1
  · split
    · exact hd _ h1
    · rename_i b1 _ t
      have h2 : Reach s.b (if b1.nBytes ≤ 0 then b1.readMore else (b1, .ok 0)).1 := by
        split
        · exact h1.trans (.read _)
        · exact h1
      split <;> rename_i heq2 <;> rw [heq2] at h2
      · split
        · rename_i b2 _ _ _
          have h3 := h2.trans (skipSpaces_reach fuel _ 1)
          split <;> rename_i heq3 <;> rw [heq3] at h3
          · exact hd _ h3
          all_goals exact h3
        · exact hd _ h2
      all_goals exact h2
  all_goals exact h1

theorem retryLoop_reach {α : Type} (f : JFn α) (eager : Bool) : ∀ (fuel : Nat) (s : RJ),
    Reach s.b (retryLoop f eager fuel s).1.b := by
  intro fuel
  induction fuel with
  | zero => intro s; exact .refl _
  | succ fuel ih =>
    intro s
    have ih' : ∀ s' : RJ, Reach s.b s'.b → Reach s.b (retryLoop f eager fuel s').1.b := fun s' h => h.trans (ih s')
    simp only [retryLoop, call]
    have h1 := Reach.read s.b
    split <;> rename_i heq <;> simp only [Prod.mk.injEq] at heq <;> obtain ⟨rfl, _⟩ := heq
    · split
      · exact .refl _
      · split <;> rename_i heq <;> (simp only at heq; rw [heq] at h1)
        · split
          · exact h1
          · exact ih' _ h1
        all_goals exact h1
    · split
      · exact .refl _
      · split <;> rename_i heq <;> (simp only at heq; rw [heq] at h1)
        · split
          · exact h1
          · exact ih' _ h1
        all_goals exact h1

theorem loopUntilSuccess_reach {α : Type} (fuel : Nat) (s : RJ) (f : JFn α) (tok : Option Byte) (eager : Bool) :
    Reach s.b (s.loopUntilSuccess fuel f tok eager).1.b := by
  have h1 : ∀ s1 : RJ, s1.b = s.b → Reach s.b (match s1.skipSpacesFeeding fuel s.jidx tok with
      | (s2, .ok ()) => retryLoop f eager fuel s2
      | (s2, .err e) => (s2, .err e)
      | (s2, .panic) => (s2, .panic)
      | (s2, .diverge) => (s2, .diverge)).1.b := by
    intro s1 hb
    have h2 := skipSpacesFeeding_reach fuel s1 s.jidx tok
    rw [hb] at h2
    split <;> rename_i heq <;> rw [heq] at h2
    · exact h2.trans (retryLoop_reach _ _ _ _)
    all_goals exact h2
  simp only [loopUntilSuccess, call]
  split <;> rename_i heq <;> simp only [Prod.mk.injEq] at heq <;> obtain ⟨rfl, _⟩ := heq
  · split
    · exact .refl _
    · exact h1 _ rfl
  · exact h1 _ rfl

theorem finishLoop_reach : ∀ (fuel : Nat) (s : RJ), Reach s.b (finishLoop fuel s).1.b := by
  intro fuel
  induction fuel with
  | zero => intro s; exact .refl _
  | succ fuel ih =>
    intro s
    have ih' : ∀ s' : RJ, Reach s.b s'.b → Reach s.b (finishLoop fuel s').1.b := fun s' h => h.trans (ih s')
    simp only [finishLoop, call]
    split <;> rename_i heq <;> simp only [Prod.mk.injEq] at heq <;> obtain ⟨rfl, _⟩ := heq
    · exact .refl _
    · rename_i s1 _
      have h1 : Reach s.b (if s.jidx + (Jiter.finish s.jdata).1 < s.b.buf.length then s.b.readMore else (s.b, .ok 1)).1 := by
        split
        · exact .read _
        · exact .refl _
      split <;> rename_i heq <;> (simp only at heq; rw [heq] at h1)
      · split
        · exact h1
        · exact ih' _ (h1.trans (.shift _ _ _))
      all_goals exact h1

theorem handleLong_reach (k : Kind) : ∀ (fuel : Nat) (s : RJ) (w : Writer), Reach s.b (handleLong k fuel s w).1.1.b := by
  intro fuel
  induction fuel with
  | zero => intro s w; exact .refl _
  | succ fuel ih =>
    intro s w
    have ih' : ∀ (s' : RJ) (w' : Writer), Reach s.b s'.b → Reach s.b (handleLong k fuel s' w').1.1.b := fun s' w' h => h.trans (ih s' w')
    simp only [handleLong, call]
    split <;> rename_i heq <;> simp only [Prod.mk.injEq] at heq <;> obtain ⟨rfl, _⟩ := heq
    · split <;> exact .refl _
    · split
      · exact .refl _
      · rename_i n _ _ _
        have h0 : Reach s.b (if s.jidx + (k.parser s.jdata).1 > 0 then
            ({ s with b := s.b.shift 0 (s.jidx + (k.parser s.jdata).1), jidx := s.jidx + (k.parser s.jdata).1 } : RJ).refresh
            else { s with jidx := s.jidx + (k.parser s.jdata).1 }).b := by
          split
          · exact .shift _ _ _
          · exact .refl _
        revert h0
        generalize (if s.jidx + (k.parser s.jdata).1 > 0 then
            ({ s with b := s.b.shift 0 (s.jidx + (k.parser s.jdata).1), jidx := s.jidx + (k.parser s.jdata).1 } : RJ).refresh
            else { s with jidx := s.jidx + (k.parser s.jdata).1 }) = s2
        intro h0
        split
        · exact h0
        · split
          · have h1 : Reach s.b (if backToLeading s2.b.buf (segmentEnd s2.b) > 1 then
                s2.b.shift 1 (backToLeading s2.b.buf (segmentEnd s2.b)) else s2.b) := by
              split
              · exact h0.trans (.shift _ _ _)
              · exact h0
            have h2 := h1.trans (.read _)
            split <;> rename_i heq <;> rw [heq] at h2
            · split
              · exact h2
              · exact ih' _ _ h2
            all_goals exact h2
          all_goals exact h0

theorem lookaheadEnd_reach (s : RJ) (b1 : Buffer) (a e : Nat) (h : Reach s.b b1) :
    Reach s.b (s.lookaheadEnd b1 a e).1.b := by
  simp only [lookaheadEnd]
  split
  · split
    · split
      · exact h.trans (.shift _ _ _)
      · split <;> exact h.trans (.shift _ _ _)
    · split <;> exact h
  · split <;> exact h

theorem lookaheadWhile_reach (fuel : Nat) (s : RJ) (p : Byte → Bool) : Reach s.b (s.lookaheadWhile fuel p).1.b := by
  have h1 := collectWhile_reach fuel s.b p s.jidx true
  simp only [lookaheadWhile]
  split <;> rename_i heq <;> rw [heq] at h1
  · exact lookaheadEnd_reach _ _ _ _ h1
  all_goals exact h1

theorem lookaheadN_reach (fuel : Nat) (s : RJ) (n : Nat) : Reach s.b (s.lookaheadN fuel n).1.b := by
  have h1 : Reach s.b (s.b.collectCount fuel n s.jidx true).1 := collectCountLoop_reach _ _ _ _ _ _ _
  simp only [lookaheadN]
  split <;> rename_i heq <;> rw [heq] at h1
  · exact lookaheadEnd_reach _ _ _ _ h1
  all_goals exact h1

theorem skipNBytes_reach (fuel : Nat) (s : RJ) (n : Nat) : Reach s.b (s.skipNBytes fuel n).1.b := by
  have h1 : Reach s.b (s.b.skipN fuel n s.jidx).1 := skipNLoop_reach _ _ _ _ _
  simp only [skipNBytes]
  split <;> rename_i heq <;> rw [heq] at h1
  · exact h1.trans (.shift _ _ _)
  all_goals exact h1

theorem knownSkipToken_reach (fuel : Nat) (s : RJ) (t : Bytes) : Reach s.b (s.knownSkipToken fuel t).1.b := by
  have h1 := lookaheadN_reach fuel s t.length
  simp only [knownSkipToken]
  split <;> rename_i heq <;> rw [heq] at h1
  · split
    · rename_i s1 _ _
      have h2 := h1.trans (skipNBytes_reach fuel s1 t.length)
      split <;> rename_i heq2 <;> rw [heq2] at h2 <;> exact h2
    · exact h1
  all_goals exact h1

end RJ

/-- Every call, whatever its outcome. -/
theorem Op.run_reach (op : Op) (fuel : Nat) (s : RJ) : Reach s.b (op.run fuel s).1.b := by
  cases op <;> first
    | exact RJ.loopUntilSuccess_reach _ _ _ _ _
    | exact RJ.finishLoop_reach _ _
    | exact RJ.lookaheadWhile_reach _ _ _
    | exact RJ.lookaheadN_reach _ _ _
    | exact RJ.skipNBytes_reach _ _ _
    | exact RJ.knownSkipToken_reach _ _ _
    | exact RJ.handleLong_reach _ _ _ _

theorem Calls.reach {s s' : RJ} (h : Calls s s') : Reach s.b s'.b := by
  induction h with
  | nil s => exact .refl _
  | cons op fuel _ ih => exact (op.run_reach fuel _).trans ih

end Verif.RJiter
