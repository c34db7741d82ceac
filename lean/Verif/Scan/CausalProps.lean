import Verif.Scan.Causal
import Verif.Scan.LateProps
import Verif.Scan.IdtFail

/-!
# Property C110: what is reported does not change with what arrives later (`scan` and `idtransform`)

`r` delivers some input and ends; `r ++ R` delivers the same input, and then whatever `R` has (data, failures, or both). Everything that `scan` does
to the client for the first one, it does for the second one too, and in the same order; it may do more. So a client may act on what it is told
before the rest of the document is there: nothing is taken back. The exception is a number at the end of the input: it may go on.
-/

namespace Verif.Scan

open Verif.RJiter RJ Jiter
open Verif.U8Pool (Pool)

/-! ## Specification -/

/-- Callbacks that only add to what they have done; `Le` says what that is. -/
structure OnlyAdds {β : Type} (cb : Callbacks β) (Le : β → β → Prop) : Prop where
  refl : ∀ b, Le b b
  trans : ∀ a b c, Le a b → Le b c → Le a c
  find : ∀ p c b, Le b (cb.find p c b).1
  act : ∀ p c b act, (cb.find p c b).2 = some act → ∀ s b', Le b' (act s b').1.2
  findEnd : ∀ p c b, Le b (cb.findEnd p c b).1
  actEnd : ∀ p c b act, (cb.findEnd p c b).2 = some act → ∀ b', Le b' (act b').1

/-! ## Proofs -/

theorem OnlyAdds.adds {β : Type} {cb : Callbacks β} {Le : β → β → Prop} (h : OnlyAdds cb Le) (ha : Aloof cb) (R : Reader) (F : Nat) : Adds cb R F Le := by
  refine ⟨h.refl, h.trans, fun b0 => ⟨fun p c b s hb _ => ?_, fun p c b hb => ?_⟩, fun p c b s hr act hact => ?_⟩
  · have h1 := h.find p c b
    have h2 := h.act p c b
    have h3 := ha p c b
    rcases hf : cb.find p c b with ⟨b', _ | a⟩ <;> rw [hf] at h1 h2 h3
    · exact h.trans _ _ _ hb h1
    · obtain ⟨b2, r, h4⟩ := h3 a rfl b'
      refine ⟨?_, h.trans _ _ _ (h.trans _ _ _ hb h1) (h2 a rfl s b')⟩
      rw [h4]
      exact .nil s
  · have h1 := h.findEnd p c b
    have h2 := h.actEnd p c b
    rcases hf : cb.findEnd p c b with ⟨b', _ | a⟩ <;> rw [hf] at h1 h2
    · exact h.trans _ _ _ hb h1
    · exact ⟨h.trans _ _ _ hb h1, h.trans _ _ _ (h.trans _ _ _ hb h1) (h2 a rfl b')⟩
  · obtain ⟨b2, r, h⟩ := ha p c b act hact (cb.find p c b).1
    rw [h, h]
    exact .inl ⟨rfl, fun _ => hr⟩

/-- **C110, partial** (callbacks that leave the parser alone, no SSE tokens). Full statement: for every input; it is false if the input ends with a
digit, see `C110_digit`. All that was done to the client's state for the input that had arrived is done to it for any longer input. -/
theorem C110_scan_partial {β : Type} (cb : Callbacks β) (ha : Aloof cb) (Le : β → β → Prop) (hg : OnlyAdds cb Le) (opt : Options)
    (hopt : opt.sseTokens = []) (turns F : Nat) (reader R : Reader) (buf : Bytes) (b : β) (pool : Pool) (h8 : 8 ≤ buf.length)
    (hf : 2 * reader.size + 2 ≤ F) (hd : NoDigit reader) :
    Le (scan turns F cb opt ⟨.new reader buf, b, pool⟩).1.baton (scan turns F cb opt ⟨.new (reader ++ R) buf, b, pool⟩).1.baton :=
  scan_apart (hg.adds ha R F) hopt turns (st := ⟨.new reader buf, b, pool⟩) (primed_new h8 hf hd)

theorem watch_onlyAdds : OnlyAdds watch (· <+: ·) := by
  refine ⟨fun _ => List.prefix_rfl, fun _ _ _ => List.IsPrefix.trans, fun p c b => List.prefix_append _ _, fun p c b act h => ?_,
    fun p c b => List.prefix_append _ _, nofun⟩
  simp only [watch, observe] at h
  simp [nothing] at h

/-- **C110, partial** (as above): the events of an input are the first events of any longer input. -/
theorem C110_events_partial (opt : Options) (hopt : opt.sseTokens = []) (turns F : Nat) (reader R : Reader) (buf : Bytes) (log : List Event)
    (pool : Pool) (h8 : 8 ≤ buf.length) (hf : 2 * reader.size + 2 ≤ F) (hd : NoDigit reader) :
    (scan turns F watch opt ⟨.new reader buf, log, pool⟩).1.baton <+: (scan turns F watch opt ⟨.new (reader ++ R) buf, log, pool⟩).1.baton :=
  C110_scan_partial watch watch_aloof _ watch_onlyAdds opt hopt turns F reader R buf log pool h8 hf hd

/-- **C110, partial**, for complete documents that have arrived (the modes are those of C31): whatever follows, white space or not, more documents,
broken ones, or a failure, their events have been reported first. -/
theorem C110_documents_partial (M : Mode) (L F : Nat) (opt : Options) (hopt : opt.stopEarly = false) (hno : opt.sseTokens = []) (R : Room)
    (ds : Docs) (tail : Bytes) (reader R' : Reader) (buf : Bytes) (log : List Event) (pool : Pool)
    (hd : NoDigit reader) (hi : Inv M L F (.new reader buf)) (hst : Holds pool R [])
    (hr : reader.pending = Docs.text ds tail) (hm : Docs.Meets (rules M L) ds tail) (hfit : R.Fits [] nameTop)
    (hfits : Docs.Fit R [nameTop] ds) (turns : Nat) (ht : ds.length + (Docs.text ds tail).length + 1 ≤ turns) :
    log ++ Docs.events [nameTop] ds <+: (scan turns F watch opt ⟨.new (reader ++ R') buf, log, pool⟩).1.baton := by
  have hrest : (RJ.new reader buf).rest = Docs.text ds tail := by rw [← hr]; rfl
  obtain ⟨st', h1, h2⟩ := C31_events_partial M L F opt hopt R [] ds tail ⟨.new reader buf, log, pool⟩ hi (ready_new _ _) hst hrest hm hfit hfits
  have h3 := C110_events_partial opt hno turns F reader R' buf log pool hi.eight hi.fuel hd
  rw [h1 turns (by simpa only [hrest] using ht), h2.baton] at h3
  exact h3

/-! ## `idtransform` -/

theorem Wrote.out {w w' : Writer} (h : Wrote w w') : w.out <+: w'.out := h.choose_spec.2.2

theorem FailedWith.out {k : Nat} {w w' : Writer} (h : FailedWith k w w') : w.out <+: w'.out := by
  obtain ⟨_, _, _, _, _, h⟩ := h
  exact h

theorem handleLong_out (k : RJ.Kind) (fuel : Nat) (s : RJ) (w : Writer) : w.out <+: (RJ.handleLong k fuel s w).1.2.out := by
  rcases handleLong_wrote k fuel s w with h | ⟨_, _, h, _⟩
  · exact h.out
  · exact h.out

theorem copyAtom_out (F : Nat) (c : Byte) (rj : RJ) (w : Writer) : w.out <+: (copyAtom F c rj w).1.2.out := by
  rcases copyAtom_copied F c rj w with h | ⟨_, h, _⟩
  · exact h.out
  · exact h.out

theorem writeAll_out (w : Writer) (bs : Bytes) : w.out <+: (w.writeAll bs).1.out := by
  rcases writeAll_cases w bs with ⟨w', h, h'⟩ | ⟨w', k, h, h'⟩ <;> rw [h] <;> exact h'.out

theorem ActedOn.out {w : Writer} {x : (RJ × Idt) × Acted} (h : ActedOn w x) : w.out <+: x.1.2.w.out := by
  rcases x with ⟨⟨s, b⟩, (_ | _ | m) | _ | _⟩
  · exact Wrote.out h
  · exact Wrote.out h
  · rcases h with h | ⟨_, h, _⟩
    · exact h.out
    · exact h.out
  · exact Wrote.out h
  · exact Wrote.out h

/-- A long string that is written with a reader that ends, and with one that goes on. -/
theorem handleLong_more (R : Reader) (kd : Kind) : ∀ (fuel : Nat) (s : RJ) (w : Writer),
    (s.more R).handleLong kd fuel w = (((s.handleLong kd fuel w).1.1.more R, (s.handleLong kd fuel w).1.2), (s.handleLong kd fuel w).2) ∨
      ((∀ v, (s.handleLong kd fuel w).2 ≠ .ok v) ∧ (s.handleLong kd fuel w).1.2.out <+: ((s.more R).handleLong kd fuel w).1.2.out) := by
  intro fuel
  induction fuel with
  | zero => intro s w; exact .inl rfl
  | succ fuel ih =>
    intro s w
    simp only [handleLong, call]
    rw [show (s.more R).jdata = s.jdata from rfl, show (s.more R).jidx = s.jidx from rfl]
    rcases kd.parser s.jdata with ⟨n, e | v⟩
    · simp only
      by_cases c1 : (!canRetry e.type) = true
      · simp only [c1, if_true]; exact .inl rfl
      · simp only [c1, Bool.false_eq_true, if_false]
        have h0 : (if s.jidx + n > 0 then ({ s.more R with b := (s.more R).b.shift 0 (s.jidx + n), jidx := s.jidx + n } : RJ).refresh
            else { s.more R with jidx := s.jidx + n }) =
            (if s.jidx + n > 0 then ({ s with b := s.b.shift 0 (s.jidx + n), jidx := s.jidx + n } : RJ).refresh
            else { s with jidx := s.jidx + n }).more R := by
          split
          · rw [show (s.more R).b = s.b.more R from rfl, shift_more]; rfl
          · rfl
        rw [h0]
        generalize (if s.jidx + n > 0 then ({ s with b := s.b.shift 0 (s.jidx + n), jidx := s.jidx + n } : RJ).refresh
            else { s with jidx := s.jidx + n }) = s2
        rw [show segmentEnd (s2.more R).b = segmentEnd s2.b from rfl, show (s2.more R).b.buf = s2.b.buf from rfl,
          show (s2.more R).currentIndex = s2.currentIndex from rfl]
        by_cases c2 : s2.b.buf.length ≤ segmentEnd s2.b
        · rw [if_pos c2, if_pos c2]; exact .inl rfl
        · simp only [c2, if_false]
          rcases (if backToLeading s2.b.buf (segmentEnd s2.b) > 1 then
              writeSegment kd s2.b.buf (backToLeading s2.b.buf (segmentEnd s2.b)) s2.currentIndex w else (w, .ok ())) with ⟨w1, _ | e1 | _ | _⟩
          · simp only
            have h1 : (if backToLeading s2.b.buf (segmentEnd s2.b) > 1 then (s2.more R).b.shift 1 (backToLeading s2.b.buf (segmentEnd s2.b)) else (s2.more R).b) =
                (if backToLeading s2.b.buf (segmentEnd s2.b) > 1 then s2.b.shift 1 (backToLeading s2.b.buf (segmentEnd s2.b)) else s2.b).more R := by
              split
              · rw [show (s2.more R).b = s2.b.more R from rfl, shift_more]
              · rfl
            rw [h1]
            generalize (if backToLeading s2.b.buf (segmentEnd s2.b) > 1 then s2.b.shift 1 (backToLeading s2.b.buf (segmentEnd s2.b)) else s2.b) = b3
            rcases readMore_meets R b3 with h | ⟨h1, h2⟩
            · rw [h]
              rcases b3.readMore with ⟨b4, m | er | _ | _⟩
              · simp only
                by_cases c4 : m = 0
                · simp only [c4, if_true]; exact .inl rfl
                · simp only [c4, if_false]; exact ih ({ s2 with b := b4 } : RJ).refresh w1
              all_goals exact .inl rfl
            · rw [h2]
              refine .inr ⟨by simp, ?_⟩
              simp only [if_true]
              rcases (b3.more R).readMore with ⟨b4, m | er | _ | _⟩
              · simp only
                split
                · exact List.prefix_rfl
                · exact handleLong_out _ _ _ _
              all_goals exact List.prefix_rfl
          all_goals exact .inl rfl
    · simp only
      rcases w.writeAll v with ⟨w1, _ | kind⟩ <;> exact .inl rfl

/-- What the one has written, the other one has written first. -/
def OutLe (a b : Idt) : Prop := a.w.out <+: b.w.out

theorem idt_serves (F : Nat) (b0 : Idt) : Serves (Idt.callbacks F) (fun _ => True) (OutLe b0) := by
  refine ⟨fun p c b s hb _ => ?_, fun p c b hb => ?_⟩
  · have ho := fun b' a => Idt.obeys F p c b b' a s
    have hact : ∀ b' a, (Idt.callbacks F).find p c b = (b', some a) → b'.w = b.w ∧ ActedOn b'.w (a s b') := by
      intro b' a h
      simp only [Idt.callbacks, Idt.find] at h
      split at h
      · obtain ⟨rfl, ha⟩ := Prod.mk.inj h
        cases ha
        exact ⟨rfl, onAtom_acted _ _ _⟩
      · obtain ⟨rfl, ha⟩ := Prod.mk.inj h
        cases ha
        exact ⟨rfl, onStruct_acted _ _ _⟩
      · obtain ⟨rfl, ha⟩ := Prod.mk.inj h
        cases ha
        exact ⟨rfl, onStruct_acted _ _ _⟩
      · split at h
        · split at h
          · obtain ⟨rfl, ha⟩ := Prod.mk.inj h
            cases ha
            exact ⟨rfl, onKey_acted _ _⟩
          · simp at h
        · simp at h
    have hnone : ∀ b', (Idt.callbacks F).find p c b = (b', none) → b' = b := by
      intro b' h
      simp only [Idt.callbacks, Idt.find] at h
      split at h
      · cases h
      · cases h
      · cases h
      · split at h
        · split at h
          · cases h
          · exact (Prod.mk.inj h).1.symm
        · exact (Prod.mk.inj h).1.symm
    rcases hf : (Idt.callbacks F).find p c b with ⟨b', _ | a⟩
    · rw [hnone b' hf]; exact hb
    · refine ⟨ho b' a hf, ?_⟩
      obtain ⟨h1, h2⟩ := hact b' a hf
      have := h2.out
      rw [h1] at this
      exact List.IsPrefix.trans hb this
  · have hend : ∀ bs, OutLe b0 (Idt.onStructEnd bs b).1 := by
      intro bs
      unfold Idt.onStructEnd
      rcases Idt.write_cases { b with seqpos := .inMiddle } bs "IO error writing struct end" with ⟨b1, e1, h1⟩ | ⟨b1, e1, k, h1, _⟩ <;> rw [e1]
      · exact List.IsPrefix.trans hb h1.out
      · exact List.IsPrefix.trans hb h1.out
    cases p with
    | array => exact ⟨hb, hend _⟩
    | object => exact ⟨hb, hend _⟩
    | atom => exact hb
    | none => exact hb

variable {R : Reader} {F : Nat}

theorem ApartAct.still {x y : (RJ × Idt) × Acted} {s : RJ} (hr : Primed F s) (h1 : x.1.1 = s)
    (h2 : y = ((x.1.1.more R, x.1.2), x.2)) : ApartAct R F OutLe x y :=
  .inl ⟨h2, fun _ => by rw [h1]; exact hr⟩

/-- A parser call in an action, and the rest of the action. -/
theorem stays_act {α : Type} {s : RJ} {x y : RJ × Res α} {m : Nat} (hw : RJ.Stays R x y) (hrun : s.Runs m x)
    (hr : Primed F s) {g : RJ × Res α → (RJ × Idt) × Acted} {w0 : Writer}
    (hok : ∀ s' v, Primed F s' → ApartAct R F OutLe (g (s', .ok v)) (g (s'.more R, .ok v)))
    (herr : ∀ s' e, (∃ m, (g (s', .err e)).2 = .op (.error m)) ∧ (g (s', .err e)).1.2.w = w0)
    (hgrow : ∀ z, w0.out <+: (g z).1.2.w.out) : ApartAct R F OutLe (g x) (g y) := by
  rcases x with ⟨s', v | e | _ | _⟩
  · obtain ⟨n, _, hm⟩ := hrun
    rw [hw s' v rfl]
    exact hok _ _ (hr.moved hm)
  · refine .inr ⟨(herr s' e).1, ?_⟩
    unfold OutLe
    rw [(herr s' e).2]
    exact hgrow y
  · exact hrun.elim
  · exact hrun.elim

theorem stored_out (b : Idt) (x : (RJ × Writer) × SRes Unit) : (stored b x).1.2.w = x.1.2 := by
  rcases x with ⟨⟨s, w⟩, _ | e | _ | _⟩
  · rfl
  · exact storeError_w _ _
  · rfl
  · rfl

theorem ioResult_w (s : RJ) (x : Writer × Option Nat) : (ioResult s x).1.2 = x.1 := by
  rcases x with ⟨w, _ | k⟩ <;> rfl

theorem io_apart (b : Idt) {s' : RJ} (hs : Primed F s') (x : Writer × Option Nat) :
    ApartAct R F OutLe (stored b (ioResult s' x)) (stored b (ioResult (s'.more R) x)) := by
  rcases x with ⟨w, _ | kd⟩ <;> exact .still hs rfl rfl

theorem copyWord_apart {α : Type} {s : RJ} {x y : RJ × Res α} {m : Nat} (hw : RJ.Stays R x y) (hrun : s.Runs m x) (hr : Primed F s) (b : Idt)
    (word : Bytes) : ApartAct R F OutLe (stored b (copyWord word b.w x)) (stored b (copyWord word b.w y)) := by
  refine stays_act hw hrun hr (g := fun x => stored b (copyWord word b.w x)) (w0 := b.w) ?_ ?_ ?_
  · intro s' v hs
    exact io_apart b hs _
  · intro s' e
    exact ⟨⟨_, rfl⟩, stored_out _ _⟩
  · intro z
    simp only [stored_out]
    rcases z with ⟨s', v | e | _ | _⟩
    · simp only [copyWord, ioResult_w]
      exact writeAll_out _ _
    all_goals exact List.prefix_rfl

theorem copyAtom_apart (c : Byte) {s : RJ} (hr : Primed F s) (b : Idt) :
    ApartAct R F OutLe (stored b (copyAtom F c s b.w)) (stored b (copyAtom F c (s.more R) b.w)) := by
  have hl : 2 ≤ s.b.buf.length := by have := hr.usable.len; omega
  have hsy := hr.usable.sync
  have hfu := hr.usable.fuel
  obtain ⟨-, h1, -, h2, -⟩ := RJ.C109_calls R F hsy
  unfold copyAtom
  by_cases c1 : c = 34
  · simp only [c1, if_true]
    rcases b.w.writeAll [34] with ⟨w, _ | kd⟩
    · simp only [RJ.writeLongBytes]
      have hrun := RJ.handleLong_runs .raw w hsy hr.usable.len hfu
      have hw := handleLong_more R .raw F s w
      generalize s.handleLong .raw F w = x at hrun hw
      generalize (s.more R).handleLong .raw F w = y at hw
      rcases x with ⟨⟨s', w'⟩, v | e | _ | _⟩
      · obtain ⟨n, _, hm⟩ := hrun
        rcases hw with rfl | ⟨h, _⟩
        · exact io_apart b (hr.moved hm) _
        · exact absurd rfl (h v)
      · rcases hw with rfl | ⟨_, hw⟩
        · refine .inr ⟨⟨_, rfl⟩, ?_⟩
          simp only [OutLe, stored_out]
          exact List.prefix_rfl
        · refine .inr ⟨⟨_, rfl⟩, ?_⟩
          simp only [OutLe, stored_out]
          refine List.IsPrefix.trans hw ?_
          rcases y with ⟨⟨t, w2⟩, v | e | _ | _⟩
          · simp only [ioResult_w]
            exact writeAll_out _ _
          all_goals exact List.prefix_rfl
      · exact hrun.elim
      · exact hrun.elim
    · exact .still hr rfl rfl
  · simp only [c1, if_false]
    by_cases c2 : c = 110
    · simp only [c2, if_true]
      exact copyWord_apart h1 (RJ.knownNull_runs hsy hl hfu) hr b _
    · simp only [c2, if_false]
      by_cases c3 : c = 116
      · simp only [c3, if_true]
        exact copyWord_apart (h2 _) (RJ.knownBool_runs _ hsy hl hfu) hr b _
      · simp only [c3, if_false]
        by_cases c4 : c = 102
        · simp only [c4, if_true]
          exact copyWord_apart (h2 _) (RJ.knownBool_runs _ hsy hl hfu) hr b _
        · simp only [c4, if_false]
          refine stays_act (nextNumber_stays R hr) (RJ.nextNumberBytes_runs hsy hl hfu) hr (g := fun x => stored b (match x with
            | (rj, .ok number) => ioResult rj (b.w.writeAll number)
            | (rj, .err _) => ((rj, b.w), .err (.unhandledPeek c rj.currentIndex))
            | (rj, .panic) => ((rj, b.w), .panic)
            | (rj, .diverge) => ((rj, b.w), .diverge))) (w0 := b.w) ?_ ?_ ?_
          · intro s' v hs
            exact io_apart b hs _
          · intro s' e
            exact ⟨⟨_, rfl⟩, stored_out _ _⟩
          · intro z
            simp only [stored_out]
            rcases z with ⟨s', v | e | _ | _⟩
            · simp only [ioResult_w]
              exact writeAll_out _ _
            all_goals exact List.prefix_rfl

theorem idt_adds (R : Reader) (F : Nat) : Adds (Idt.callbacks F) R F OutLe := by
  refine ⟨fun b => List.prefix_rfl, fun _ _ _ => List.IsPrefix.trans, idt_serves F, ?_⟩
  intro p c b s hr act hact
  have hl : 2 ≤ s.b.buf.length := by have := hr.usable.len; omega
  have hstruct : ∀ (bs : Bytes) (b : Idt), ApartAct R F OutLe (Idt.onStruct bs s b) (Idt.onStruct bs (s.more R) b) := by
    intro bs b
    unfold Idt.onStruct
    rcases b.writeSeqpos with ⟨b, _ | m⟩
    · simp only
      rcases b.write bs "IO error writing struct" with ⟨b, _ | m⟩ <;> exact .still hr rfl rfl
    · exact .still hr rfl rfl
  have hatom : ∀ (b : Idt), ApartAct R F OutLe (Idt.onAtom F s b) (Idt.onAtom F (s.more R) b) := by
    intro b
    rw [onAtom_eq, onAtom_eq]
    rcases b.writeSeqpos with ⟨b, _ | m⟩
    · simp only
      refine stays_act (RJ.C109_calls R F hr.usable.sync).1 (RJ.peek_runs hr.usable.sync hl hr.usable.fuel) hr (g := fun x => match x with
        | (rj, .ok peeked) => stored b (copyAtom F peeked rj b.w)
        | (rj, .err e) => ((rj, b.storeError (.rjiter e)), .op (.error "RJiter error (stored in idt)"))
        | (rj, .panic) => ((rj, b), .panic)
        | (rj, .diverge) => ((rj, b), .diverge)) (w0 := b.w) ?_ ?_ ?_
      · intro s' v hs
        exact copyAtom_apart v hs b
      · intro s' e
        exact ⟨⟨_, rfl⟩, storeError_w _ _⟩
      · intro z
        rcases z with ⟨s', v | e | _ | _⟩
        · simp only [stored_out]
          exact copyAtom_out _ _ _ _
        · simp only [storeError_w]
          exact List.prefix_rfl
        all_goals exact List.prefix_rfl
    · exact .still hr rfl rfl
  have hkey : ∀ (b : Idt), ApartAct R F OutLe (Idt.onKey s b) (Idt.onKey (s.more R) b) := by
    intro b
    unfold Idt.onKey
    rcases b.writeSeqpos with ⟨b, _ | m⟩ <;> exact .still hr rfl rfl
  change ((Idt.find F p c b).2 = some act) at hact
  change ApartAct R F OutLe (act s (Idt.find F p c b).1) (act (s.more R) (Idt.find F p c b).1)
  unfold Idt.find at hact ⊢
  cases p with
  | none =>
    simp only at hact ⊢
    revert hact
    split
    · split
      · intro hact; injection hact with hact; subst hact; exact hkey _
      · intro hact; cases hact
    · intro hact; cases hact
  | array => injection hact with hact; subst hact; exact hstruct _ _
  | object => injection hact with hact; subst hact; exact hstruct _ _
  | atom => injection hact with hact; subst hact; exact hatom _

/-- **C110, partial** (as above), for `idtransform`: what it writes for an input is the beginning of what it writes for any longer input, whether it
succeeds or not. -/
theorem C110_idtransform_partial (turns F : Nat) (reader R : Reader) (buf : Bytes) (w : Writer) (pool : Pool) (h8 : 8 ≤ buf.length)
    (hf : 2 * reader.size + 2 ≤ F) (hd : NoDigit reader) :
    (idtransform turns F (.new reader buf) w pool).1.2.1.out <+: (idtransform turns F (.new (reader ++ R) buf) w pool).1.2.1.out := by
  have h := scan_apart (idt_adds R F) (opt := ⟨[], true⟩) rfl turns (st := ⟨.new reader buf, .new w, pool⟩) (primed_new h8 hf hd)
  unfold idtransform
  rw [show (St.more R ⟨.new reader buf, .new w, pool⟩ : St Idt) = ⟨.new (reader ++ R) buf, .new w, pool⟩ from rfl] at h
  generalize scan turns F (Idt.callbacks F) ⟨[], true⟩ ⟨.new reader buf, .new w, pool⟩ = x at h ⊢
  generalize scan turns F (Idt.callbacks F) ⟨[], true⟩ ⟨.new (reader ++ R) buf, .new w, pool⟩ = y at h ⊢
  rcases x with ⟨st1, r1⟩
  rcases y with ⟨st2, r2⟩
  cases r1 <;> cases r2 <;> exact h

/-- What is reported and written for `{"k": ["x", 12], "y": tru`, and when the input goes on in two ways. -/
example : NoDigit (piece exPause) ∧ OnlyAdds watch (· <+: ·) ∧
    (scan 60 200 watch ⟨[], false⟩ ⟨.new (piece exPause) (List.replicate 40 0), [], exPool⟩).1.baton.length = 9 ∧
    (scan 60 200 watch ⟨[], false⟩ ⟨.new (piece exPause ++ [.data 101 [125]]) (List.replicate 40 0), [], exPool⟩).1.baton.length = 11 ∧
    (idtransform 60 200 (.new (piece exPause) (List.replicate 40 0)) ⟨[], []⟩ exPool).1.2.1.out = "{\"k\":[\"x\",12],\"y\":".toUTF8.toList ∧
    (idtransform 60 200 (.new (piece exPause ++ [.data 101 [125]]) (List.replicate 40 0)) ⟨[], []⟩ exPool).1.2.1.out =
      "{\"k\":[\"x\",12],\"y\":true}".toUTF8.toList ∧
    (idtransform 60 200 (.new (piece exPause ++ [.data 97 [125]]) (List.replicate 40 0)) ⟨[], []⟩ exPool).1.2.1.out =
      "{\"k\":[\"x\",12],\"y\":".toUTF8.toList := by
  refine ⟨?_, watch_onlyAdds, by decide +kernel, by decide +kernel, by decide +kernel, by decide +kernel, by decide +kernel⟩
  intro c hc
  have : (piece exPause).pending.getLast? = some 117 := by decide +kernel
  rw [this] at hc
  injection hc with hc
  subst hc
  intro h
  exact absurd h.2 (by decide)

/-- **C110, the false part.** `{"a":1`: at the end of the input the number is taken, and the end of the member is reported; if a point and a brace
follow, there is no number, and it is not. `idtransform` has then written `{"a":1`, and `{"a":`. -/
theorem C110_digit : ∃ (reader R : Reader) (buf : Bytes), (reader ++ R).Clean ∧ 40 ≤ buf.length ∧ 2 * (reader ++ R).size + 2 ≤ 100 ∧
    reader.pending = "{\"a\":1".toUTF8.toList ∧ R.pending = ".}".toUTF8.toList ∧
    ¬ (scan 40 100 watch ⟨[], false⟩ ⟨.new reader buf, [], exPool⟩).1.baton <+:
      (scan 40 100 watch ⟨[], false⟩ ⟨.new (reader ++ R) buf, [], exPool⟩).1.baton ∧
    (idtransform 40 100 (.new reader buf) ⟨[], []⟩ exPool).1.2.1.out = "{\"a\":1".toUTF8.toList ∧
    (idtransform 40 100 (.new (reader ++ R) buf) ⟨[], []⟩ exPool).1.2.1.out = "{\"a\":".toUTF8.toList := by
  refine ⟨piece "{\"a\":1".toUTF8.toList, piece ".}".toUTF8.toList, List.replicate 40 0, by decide +kernel, by decide, by decide +kernel,
    by decide +kernel, by decide +kernel, ?_, by decide +kernel, by decide +kernel⟩
  intro h
  have h1 := h.length_le
  exact absurd h1 (by decide +kernel)

end Verif.Scan
