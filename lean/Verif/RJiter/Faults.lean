import Verif.RJiter.Trace

/-!
# Failures of the reader are reported, and nothing else is reported as one
-/

namespace Verif.RJiter

open Buffer

/-! ## Specification -/

/-- The failures that are still to come, in their order. -/
def Reader.faults : Reader → List Nat
  | [] => []
  | .data _ _ :: r => Reader.faults r
  | .fail k :: r => k :: Reader.faults r

/-- What may have become of the failures when a call with the result `r` led from the buffer `b` to `b'`: if the result is an I/O error,
it is the next failure, and the index is the number of bytes in the buffer; otherwise there was no failure. -/
def Told {α : Type} (b b' : Buffer) : Res α → Prop
  | .err ⟨.io k, i⟩ => b.reader.faults = k :: b'.reader.faults ∧ i = b'.nBytes
  | _ => b.reader.faults = b'.reader.faults

/-- The failures of a writer that are still to come, in their order. -/
def Writer.faults (w : Writer) : List Nat := w.plan.filterMap (·.map WriteFault.kind)

/-- The same for the calls that also write: an I/O error is the next failure of the reader or of the writer, and the other one did not fail.
The index is then the number of bytes in the buffer, or the position. -/
def ToldW (s s' : RJ) (w w' : Writer) : Res Unit → Prop
  | .err ⟨.io k, i⟩ =>
    (s.b.reader.faults = k :: s'.b.reader.faults ∧ i = s'.b.nBytes ∧ w.faults = w'.faults) ∨
    (s.b.reader.faults = s'.b.reader.faults ∧ w.faults = k :: w'.faults ∧ i = s'.currentIndex)
  | _ => s.b.reader.faults = s'.b.reader.faults ∧ w.faults = w'.faults

/-! ## Proof -/

theorem Told.from {α : Type} {b c b' : Buffer} {r : Res α} (h : Told c b' r) (e : b.reader.faults = c.reader.faults) : Told b b' r := by
  unfold Told at *
  rw [e]; exact h

/-- An error is handed on. -/
theorem Told.err {α β : Type} {b b' : Buffer} {e : Err} (h : Told b b' (.err e : Res α)) : Told b b' (.err e : Res β) := by
  rcases e with ⟨_ | _ | k | _, i⟩ <;> exact h

theorem Told.same {α : Type} {b b' : Buffer} (h : b.reader.faults = b'.reader.faults) (r : Res α)
    (hr : ∀ k i, r ≠ .err ⟨.io k, i⟩) : Told b b' r := by
  rcases r with _ | ⟨_ | _ | k | _, i⟩ | _ | _
  all_goals first | exact h | exact absurd rfl (hr _ _)

theorem shift_faults (b : Buffer) (t f : Nat) : (b.shift t f).reader.faults = b.reader.faults := by
  unfold Buffer.shift; simp only; split <;> rfl

theorem readMore_told (b : Buffer) : Told b b.readMore.1 b.readMore.2 := by
  unfold Buffer.readMore
  split
  · rfl
  · unfold Reader.read
    split
    · rename_i r k heq
      split at heq
      · simp at heq
      · split at heq
        · simp at heq
        · rename_i hr
          simp only [Prod.mk.injEq, Except.error.injEq] at heq
          simp [Told, hr, Reader.faults, heq.1, heq.2]
        · split at heq <;> simp at heq
    · rename_i r bs heq
      show b.reader.faults = r.faults
      split at heq
      · simp only [Prod.mk.injEq] at heq; rw [heq.1]
      · split at heq
        · rename_i hr
          simp only [Prod.mk.injEq] at heq; rw [hr, ← heq.1]
        · simp at heq
        · rename_i hr
          split at heq
          · simp only [Prod.mk.injEq] at heq; rw [hr, ← heq.1]; rfl
          · simp only [Prod.mk.injEq] at heq; rw [hr, ← heq.1]; rfl

theorem collectWhileLoop_told (p : Byte → Bool) (st : Nat) (al : Bool) : ∀ (fuel : Nat) (b : Buffer) (i c : Nat) (sh : Bool),
    Told b (collectWhileLoop p st al fuel b i c sh).1 (collectWhileLoop p st al fuel b i c sh).2 := by
  intro fuel
  induction fuel with
  | zero => intro b i c sh; rfl
  | succ fuel ih =>
    intro b i c sh
    simp only [collectWhileLoop]
    split
    · rfl
    · split
      · split
        · rfl
        · have h1 := (readMore_told (b.shift 0 st)).from (shift_faults b 0 st).symm
          split <;> rename_i heq <;> rw [heq] at h1
          · split
            · exact h1
            · exact (ih _ _ _ _).from h1
          all_goals first | exact h1 | exact h1.err
      · have h1 := readMore_told b
        split <;> rename_i heq <;> rw [heq] at h1
        · split
          · exact h1
          · exact (ih _ _ _ _).from h1
        all_goals first | exact h1 | exact h1.err

theorem collectWhile_told (fuel : Nat) (b : Buffer) (p : Byte → Bool) (st : Nat) (al : Bool) :
    Told b (b.collectWhile fuel p st al).1 (b.collectWhile fuel p st al).2 := collectWhileLoop_told _ _ _ _ _ _ _ _

theorem skipSpacesLoop_told (fuel0 pos : Nat) : ∀ (fuel : Nat) (b : Buffer),
    Told b (skipSpacesLoop fuel0 pos fuel b).1 (skipSpacesLoop fuel0 pos fuel b).2 := by
  intro fuel
  induction fuel with
  | zero => intro b; rfl
  | succ fuel ih =>
    intro b
    simp only [skipSpacesLoop]
    have h1 := collectWhile_told fuel0 b isAsciiWs pos false
    split <;> rename_i heq <;> rw [heq] at h1
    · simp only
      split
      · show _ = _
        rw [shift_faults]; exact h1
      · exact h1
    · split
      · rename_i b1 e hb
        have h2 : b.reader.faults = b1.reader.faults := by
          rcases e with ⟨_ | _ | k | _, i⟩
          all_goals first | exact h1 | simp at hb
        exact (ih _).from (h2.trans (shift_faults _ _ _).symm)
      · first | exact h1 | exact h1.err
    all_goals first | exact h1 | exact h1.err

theorem skipSpaces_told (fuel : Nat) (b : Buffer) (pos : Nat) : Told b (b.skipSpaces fuel pos).1 (b.skipSpaces fuel pos).2 :=
  skipSpacesLoop_told _ _ _ _

theorem collectCountLoop_told (n : Nat) (al : Bool) : ∀ (fuel : Nat) (b : Buffer) (t c : Nat) (sh : Bool),
    Told b (collectCountLoop n al fuel b t c sh).1 (collectCountLoop n al fuel b t c sh).2 := by
  intro fuel
  induction fuel with
  | zero => intro b t c sh; rfl
  | succ fuel ih =>
    intro b t c sh
    simp only [collectCountLoop]
    split
    · rfl
    · split
      · split
        · rfl
        · split
          · rfl
          · have h1 := (readMore_told (b.shift 0 c)).from (shift_faults b 0 c).symm
            split <;> rename_i heq <;> rw [heq] at h1
            · split
              · exact h1
              · exact (ih _ _ _ _).from h1
            all_goals first | exact h1 | exact h1.err
      · have h1 := readMore_told b
        split <;> rename_i heq <;> rw [heq] at h1
        · split
          · exact h1
          · exact (ih _ _ _ _).from h1
        all_goals first | exact h1 | exact h1.err

theorem skipNLoop_told : ∀ (fuel : Nat) (b : Buffer) (r c t : Nat),
    Told b (skipNLoop fuel b r c t).1 (skipNLoop fuel b r c t).2 := by
  intro fuel
  induction fuel with
  | zero => intro b r c t; rfl
  | succ fuel ih =>
    intro b r c t
    simp only [skipNLoop]
    split
    · rfl
    · split
      · rfl
      · have h0 : b.reader.faults = (if (b.nBytes == b.buf.length) = true then b.shift 0 (c + (b.nBytes - c)) else b).reader.faults := by
          split
          · exact (shift_faults _ _ _).symm
          · rfl
        have h1 := (readMore_told _).from h0
        split <;> rename_i heq <;> rw [heq] at h1
        · split
          · exact h1
          · exact (ih _ _ _ _).from h1
        all_goals first | exact h1 | exact h1.err

namespace RJ

theorem skipSpacesFeeding_told (fuel : Nat) (s : RJ) (jp : Nat) (tok : Option Byte) :
    Told s.b (s.skipSpacesFeeding fuel jp tok).1.b (s.skipSpacesFeeding fuel jp tok).2 := by
  have hd : ∀ b, s.b.reader.faults = b.reader.faults → Told s.b (if isChanged s.b b then (({ s with b := b } : RJ).refresh, (Res.ok () : Res Unit))
      else ({ s with b := b }, .ok ())).1.b (if isChanged s.b b then (({ s with b := b } : RJ).refresh, (Res.ok () : Res Unit))
      else ({ s with b := b }, .ok ())).2 := by
    intro b hb; split <;> exact hb
  have h0 : s.b.reader.faults = (if jp > 0 then s.b.shift 0 jp else s.b).reader.faults := by
    split
    · exact (shift_faults _ _ _).symm
    · rfl
  simp only [skipSpacesFeeding]
  have h1 := (skipSpaces_told fuel _ 0).from h0
  split <;> rename_i heq <;> rw [heq] at h1
  · split
    · exact hd _ h1
    · rename_i b1 _ t
      have h2 : Told s.b (if b1.nBytes ≤ 0 then b1.readMore else (b1, .ok 0)).1 (if b1.nBytes ≤ 0 then b1.readMore else (b1, .ok 0)).2 := by
        split
        · exact (readMore_told _).from h1
        · exact h1
      split <;> rename_i heq2 <;> rw [heq2] at h2
      · split
        · rename_i b2 _ _
          have h3 := (skipSpaces_told fuel b2 1).from h2
          split <;> rename_i heq3 <;> rw [heq3] at h3
          · exact hd _ h3
          all_goals first | exact h3 | exact h3.err
        · exact hd _ h2
      all_goals first | exact h2 | exact h2.err
  all_goals first | exact h1 | exact h1.err

theorem mkErr_told {α : Type} {b b' : Buffer} (h : b.reader.faults = b'.reader.faults) (s : RJ) (n : Nat) (e : JErr) :
    Told b b' (.err (s.mkErr n e) : Res α) := by
  apply Told.same h
  intro k i hk
  simp only [mkErr, Err.fromJiter, Res.err.injEq, Err.mk.injEq] at hk
  rcases e with ⟨_ | _, _⟩ <;> simp [ErrType.ofJ] at hk

theorem retryLoop_told {α : Type} (f : JFn α) (eager : Bool) : ∀ (fuel : Nat) (s : RJ),
    Told s.b (retryLoop f eager fuel s).1.b (retryLoop f eager fuel s).2 := by
  intro fuel
  induction fuel with
  | zero => intro s; rfl
  | succ fuel ih =>
    intro s
    have ih' : ∀ s' : RJ, s.b.reader.faults = s'.b.reader.faults → Told s.b (retryLoop f eager fuel s').1.b (retryLoop f eager fuel s').2 :=
      fun s' h => (ih s').from h
    simp only [retryLoop, call]
    have h1 := readMore_told s.b
    split <;> rename_i heq <;> simp only [Prod.mk.injEq] at heq <;> obtain ⟨rfl, _⟩ := heq
    · split
      · exact mkErr_told rfl _ _ _
      · split <;> rename_i heq <;> (simp only at heq; rw [heq] at h1)
        · split
          · exact mkErr_told h1 _ _ _
          · exact ih' _ h1
        all_goals first | exact h1 | exact h1.err
    · split
      · rfl
      · split <;> rename_i heq <;> (simp only at heq; rw [heq] at h1)
        · split
          · exact h1
          · exact ih' _ h1
        all_goals first | exact h1 | exact h1.err

theorem loopUntilSuccess_told {α : Type} (fuel : Nat) (s : RJ) (f : JFn α) (tok : Option Byte) (eager : Bool) :
    Told s.b (s.loopUntilSuccess fuel f tok eager).1.b (s.loopUntilSuccess fuel f tok eager).2 := by
  have h1 : ∀ s1 : RJ, s1.b = s.b → ∀ x, x = (match s1.skipSpacesFeeding fuel s.jidx tok with
      | (s2, .ok ()) => retryLoop f eager fuel s2
      | (s2, .err e) => (s2, .err e)
      | (s2, .panic) => (s2, .panic)
      | (s2, .diverge) => (s2, .diverge)) → Told s.b x.1.b x.2 := by
    intro s1 hb x hx
    subst hx
    have h2 := skipSpacesFeeding_told fuel s1 s.jidx tok
    rw [hb] at h2
    split <;> rename_i heq <;> rw [heq] at h2
    · exact (retryLoop_told _ _ _ _).from h2
    all_goals first | exact h2 | exact h2.err
  simp only [loopUntilSuccess, call]
  split <;> rename_i heq <;> simp only [Prod.mk.injEq] at heq <;> obtain ⟨rfl, _⟩ := heq
  · split
    · rfl
    · exact h1 ⟨s.b, s.jlen, s.jidx + (f s.jdata).1⟩ rfl _ rfl
  · exact h1 ⟨s.b, s.jlen, s.jidx + (f s.jdata).1⟩ rfl _ rfl

theorem finishLoop_told : ∀ (fuel : Nat) (s : RJ), Told s.b (finishLoop fuel s).1.b (finishLoop fuel s).2 := by
  intro fuel
  induction fuel with
  | zero => intro s; rfl
  | succ fuel ih =>
    intro s
    have ih' : ∀ s' : RJ, s.b.reader.faults = s'.b.reader.faults → Told s.b (finishLoop fuel s').1.b (finishLoop fuel s').2 :=
      fun s' h => (ih s').from h
    simp only [finishLoop, call]
    split <;> rename_i heq <;> simp only [Prod.mk.injEq] at heq <;> obtain ⟨rfl, _⟩ := heq
    · exact mkErr_told rfl _ _ _
    · rename_i s1 _
      have h1 : Told s.b (if s.jidx + (Jiter.finish s.jdata).1 < s.b.buf.length then s.b.readMore else (s.b, .ok 1)).1
          (if s.jidx + (Jiter.finish s.jdata).1 < s.b.buf.length then s.b.readMore else (s.b, .ok 1)).2 := by
        split
        · exact readMore_told _
        · rfl
      split <;> rename_i heq <;> (simp only at heq; rw [heq] at h1)
      · split
        · exact h1
        · exact ih' _ (Eq.trans (h1 : _ = _) (shift_faults _ _ _).symm)
      all_goals first | exact h1 | exact h1.err

theorem lookaheadEnd_told (s : RJ) (b1 : Buffer) (a e : Nat) (h : s.b.reader.faults = b1.reader.faults) :
    Told s.b (s.lookaheadEnd b1 a e).1.b (s.lookaheadEnd b1 a e).2 := by
  have hs : s.b.reader.faults = (b1.shift 0 s.jidx).reader.faults := h.trans (shift_faults _ _ _).symm
  simp only [lookaheadEnd]
  split
  · split
    · split
      · exact hs
      · split <;> exact hs
    · split <;> exact h
  · split <;> exact h

theorem lookaheadWhile_told (fuel : Nat) (s : RJ) (p : Byte → Bool) : Told s.b (s.lookaheadWhile fuel p).1.b (s.lookaheadWhile fuel p).2 := by
  have h1 := collectWhile_told fuel s.b p s.jidx true
  simp only [lookaheadWhile]
  split <;> rename_i heq <;> rw [heq] at h1
  · exact lookaheadEnd_told _ _ _ _ h1
  all_goals first | exact h1 | exact h1.err

theorem lookaheadN_told (fuel : Nat) (s : RJ) (n : Nat) : Told s.b (s.lookaheadN fuel n).1.b (s.lookaheadN fuel n).2 := by
  have h1 : Told s.b (s.b.collectCount fuel n s.jidx true).1 (s.b.collectCount fuel n s.jidx true).2 := collectCountLoop_told _ _ _ _ _ _ _
  simp only [lookaheadN]
  split <;> rename_i heq <;> rw [heq] at h1
  · exact lookaheadEnd_told _ _ _ _ h1
  all_goals first | exact h1 | exact h1.err

theorem skipNBytes_told (fuel : Nat) (s : RJ) (n : Nat) : Told s.b (s.skipNBytes fuel n).1.b (s.skipNBytes fuel n).2 := by
  have h1 : Told s.b (s.b.skipN fuel n s.jidx).1 (s.b.skipN fuel n s.jidx).2 := skipNLoop_told _ _ _ _ _
  simp only [skipNBytes]
  split <;> rename_i heq <;> rw [heq] at h1
  · exact Eq.trans (h1 : _ = _) (shift_faults _ _ _).symm
  all_goals first | exact h1 | exact h1.err

theorem knownSkipToken_told (fuel : Nat) (s : RJ) (t : Bytes) : Told s.b (s.knownSkipToken fuel t).1.b (s.knownSkipToken fuel t).2 := by
  have h1 := lookaheadN_told fuel s t.length
  simp only [knownSkipToken]
  split <;> rename_i heq <;> rw [heq] at h1
  · split
    · rename_i s1 _ _
      have h2 := (skipNBytes_told fuel s1 t.length).from h1
      split <;> rename_i heq2 <;> rw [heq2] at h2 <;> first | exact h2 | exact h2.err
    · exact h1
  all_goals first | exact h1 | exact h1.err

theorem writeAll_faults (w : Writer) (bs : Bytes) : w.faults = (w.writeAll bs).2.toList ++ (w.writeAll bs).1.faults := by
  unfold Writer.writeAll
  split <;> rename_i h <;> simp [Writer.faults, h]

theorem _root_.Verif.RJiter.ToldW.from {s1 s2 s' : RJ} {w w1 w' : Writer} {r : Res Unit} (h : ToldW s2 s' w1 w' r)
    (e : s1.b.reader.faults = s2.b.reader.faults) (ew : w.faults = w1.faults) : ToldW s1 s' w w' r := by
  unfold ToldW at *
  rw [e, ew]; exact h

theorem _root_.Verif.RJiter.ToldW.same {s s' : RJ} {w w' : Writer} (h : s.b.reader.faults = s'.b.reader.faults) (hw : w.faults = w'.faults) (r : Res Unit)
    (hr : ∀ k i, r ≠ .err ⟨.io k, i⟩) : ToldW s s' w w' r := by
  rcases r with _ | ⟨_ | _ | k | _, i⟩ | _ | _
  all_goals first | exact ⟨h, hw⟩ | exact absurd rfl (hr _ _)

theorem fromJiter_io (n : Nat) (t : JErrType) (i k j : Nat) : (Res.err (Err.fromJiter n t i) : Res Unit) ≠ .err ⟨.io k, j⟩ := by
  intro hk
  simp only [Err.fromJiter, Res.err.injEq, Err.mk.injEq] at hk
  cases t <;> simp [ErrType.ofJ] at hk

theorem writeSegment_toldW (k : Kind) (buf : Bytes) (p : Nat) (s s' : RJ) (h : s.b.reader.faults = s'.b.reader.faults) (w : Writer) :
    ToldW s s' w (writeSegment k buf p s'.currentIndex w).1 (writeSegment k buf p s'.currentIndex w).2 := by
  unfold writeSegment
  split
  · have h1 := writeAll_faults w ((buf.take p).drop 1)
    split <;> rename_i heq <;> rw [heq] at h1
    · exact ⟨h, h1⟩
    · exact .inr ⟨h, h1, rfl⟩
  · split
    · rename_i v _
      have h1 := writeAll_faults w v
      split <;> rename_i heq <;> rw [heq] at h1
      · exact ⟨h, h1⟩
      · exact .inr ⟨h, h1, rfl⟩
    · exact .same h rfl _ (fromJiter_io _ _ _)

theorem handleLong_toldW (k : Kind) : ∀ (fuel : Nat) (s : RJ) (w : Writer),
    ToldW s (handleLong k fuel s w).1.1 w (handleLong k fuel s w).1.2 (handleLong k fuel s w).2 := by
  intro fuel
  induction fuel with
  | zero => intro s w; exact ⟨rfl, rfl⟩
  | succ fuel ih =>
    intro s w
    simp only [handleLong, call]
    split <;> rename_i heq <;> simp only [Prod.mk.injEq] at heq <;> obtain ⟨rfl, _⟩ := heq
    · rename_i v _
      have h1 := writeAll_faults w v
      split <;> rename_i heq <;> rw [heq] at h1
      · exact ⟨rfl, h1⟩
      · exact .inr ⟨rfl, h1, rfl⟩
    · split
      · exact .same (s' := { s with jidx := s.jidx + (k.parser s.jdata).1 }) rfl rfl _ (fromJiter_io _ _ _)
      · have h0 : s.b.reader.faults = (if s.jidx + (k.parser s.jdata).1 > 0 then
            ({ s with b := s.b.shift 0 (s.jidx + (k.parser s.jdata).1), jidx := s.jidx + (k.parser s.jdata).1 } : RJ).refresh
            else { s with jidx := s.jidx + (k.parser s.jdata).1 }).b.reader.faults := by
          split
          · exact (shift_faults _ _ _).symm
          · rfl
        revert h0
        generalize (if s.jidx + (k.parser s.jdata).1 > 0 then
            ({ s with b := s.b.shift 0 (s.jidx + (k.parser s.jdata).1), jidx := s.jidx + (k.parser s.jdata).1 } : RJ).refresh
            else { s with jidx := s.jidx + (k.parser s.jdata).1 }) = s2
        intro h0
        split
        · exact ⟨h0, rfl⟩
        · have hw : ToldW s s2 w (if backToLeading s2.b.buf (segmentEnd s2.b) > 1 then
              writeSegment k s2.b.buf (backToLeading s2.b.buf (segmentEnd s2.b)) s2.currentIndex w else (w, .ok ())).1
              (if backToLeading s2.b.buf (segmentEnd s2.b) > 1 then
              writeSegment k s2.b.buf (backToLeading s2.b.buf (segmentEnd s2.b)) s2.currentIndex w else (w, .ok ())).2 := by
            split
            · exact writeSegment_toldW _ _ _ _ _ h0 _
            · exact ⟨h0, rfl⟩
          split <;> rename_i heq <;> rw [heq] at hw
          · have h1 : s.b.reader.faults = (if backToLeading s2.b.buf (segmentEnd s2.b) > 1 then
                s2.b.shift 1 (backToLeading s2.b.buf (segmentEnd s2.b)) else s2.b).reader.faults := by
              split
              · exact h0.trans (shift_faults _ _ _).symm
              · exact h0
            have h2 := (readMore_told _).from h1
            split <;> rename_i heq <;> rw [heq] at h2
            · split
              · rename_i b4 _ _
                exact .same (s' := { s2 with b := b4 }) h2 hw.2 _ (fromJiter_io _ _ _)
              · exact (ih _ _).from h2 hw.2
            · rename_i e
              rcases e with ⟨_ | _ | k | _, i⟩
              all_goals first | exact ⟨h2, hw.2⟩ | exact .inl ⟨h2.1, h2.2, hw.2⟩
            all_goals exact ⟨h2, hw.2⟩
          all_goals exact hw

end RJ

theorem Told.void {α : Type} {b b' : Buffer} {r : Res α} (h : Told b b' r) : Told b b' r.void := by
  rcases r with _ | e | _ | _
  all_goals first | exact h | exact h.err

/-- Does the call write? -/
def Op.writes : Op → Bool
  | .writeLongBytes _ => true
  | .writeLongStr _ => true
  | _ => false

theorem Op.run_told (op : Op) (hop : op.writes = false) (fuel : Nat) (s : RJ) : Told s.b (op.run fuel s).1.b (op.run fuel s).2 := by
  cases op <;> first
    | exact (RJ.loopUntilSuccess_told _ _ _ _ _).void
    | exact RJ.finishLoop_told _ _
    | exact (RJ.lookaheadWhile_told _ _ _).void
    | exact (RJ.lookaheadN_told _ _ _).void
    | exact (RJ.skipNBytes_told _ _ _).void
    | exact RJ.knownSkipToken_told _ _ _
    | simp [Op.writes] at hop

end Verif.RJiter
