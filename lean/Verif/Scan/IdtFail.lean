import Verif.Scan.Idt
import Verif.Scan.Sim
import Verif.RJiter.Long
import Verif.Scan.Props

/-!
# Property C39: what `idtransform` does when a write fails

For any input.
-/

namespace Verif.Scan

open Verif.U8Pool (Pool)
open Verif.RJiter

/-- From `w` to `w'` by successful `write_all` calls. -/
def Wrote (w w' : Writer) : Prop := ∃ pre, w.plan = pre ++ w'.plan ∧ (∀ x ∈ pre, x = none) ∧ w.out <+: w'.out

/-- From `w` to `w'` by `write_all` calls of which the last one failed with the error kind `k`, and no other. -/
def FailedWith (k : Nat) (w w' : Writer) : Prop :=
  ∃ pre f, w.plan = pre ++ some f :: w'.plan ∧ (∀ x ∈ pre, x = none) ∧ f.kind = k ∧ w.out <+: w'.out

theorem Wrote.refl (w : Writer) : Wrote w w := ⟨[], rfl, nofun, List.prefix_rfl⟩

theorem Wrote.trans {w w' w'' : Writer} (h : Wrote w w') (h' : Wrote w' w'') : Wrote w w'' := by
  obtain ⟨p, h1, h2, h3⟩ := h
  obtain ⟨p', h1', h2', h3'⟩ := h'
  refine ⟨p ++ p', by rw [h1, h1', List.append_assoc], ?_, h3.trans h3'⟩
  intro x hx
  rcases List.mem_append.mp hx with hx | hx
  · exact h2 x hx
  · exact h2' x hx

theorem Wrote.failed {k : Nat} {w w' w'' : Writer} (h : Wrote w w') (h' : FailedWith k w' w'') : FailedWith k w w'' := by
  obtain ⟨p, h1, h2, h3⟩ := h
  obtain ⟨p', f, h1', h2', hk, h3'⟩ := h'
  refine ⟨p ++ p', f, by rw [h1, h1', List.append_assoc], ?_, hk, h3.trans h3'⟩
  intro x hx
  rcases List.mem_append.mp hx with hx | hx
  · exact h2 x hx
  · exact h2' x hx

theorem writeAll_cases (w : Writer) (bs : Bytes) :
    (∃ w', w.writeAll bs = (w', none) ∧ Wrote w w') ∨ (∃ w' k, w.writeAll bs = (w', some k) ∧ FailedWith k w w') := by
  rcases w with ⟨out, _ | ⟨_ | f, plan⟩⟩
  · exact .inl ⟨_, rfl, [], rfl, nofun, List.prefix_append _ _⟩
  · exact .inl ⟨_, rfl, [none], rfl, by simp, List.prefix_append _ _⟩
  · exact .inr ⟨_, f.kind, rfl, [], f, rfl, nofun, rfl, List.prefix_append _ _⟩

/-- The writer behind a call that may write. -/
def WroteOr {α : Type} (w w' : Writer) (r : Res α) : Prop :=
  Wrote w w' ∨ ∃ k i, FailedWith k w w' ∧ r = .err ⟨.io k, i⟩

theorem writeSegment_wrote (k : RJ.Kind) (buf : Bytes) (e i : Nat) (w : Writer) :
    WroteOr w (RJ.writeSegment k buf e i w).1 (RJ.writeSegment k buf e i w).2 := by
  cases k with
  | raw =>
    simp only [RJ.writeSegment]
    rcases writeAll_cases w ((buf.take e).drop 1) with ⟨w', h, h'⟩ | ⟨w', k, h, h'⟩ <;> rw [h]
    · exact .inl h'
    · exact .inr ⟨k, _, h', rfl⟩
  | str =>
    simp only [RJ.writeSegment]
    rcases Jiter.knownStr (buf.take e ++ [34]) with ⟨n, er | v⟩
    · exact .inl (Wrote.refl _)
    · simp only
      rcases writeAll_cases w v with ⟨w', h, h'⟩ | ⟨w', k, h, h'⟩ <;> rw [h]
      · exact .inl h'
      · exact .inr ⟨k, _, h', rfl⟩

theorem handleLong_wrote (k : RJ.Kind) : ∀ (fuel : Nat) (s : RJ) (w : Writer),
    WroteOr w (RJ.handleLong k fuel s w).1.2 (RJ.handleLong k fuel s w).2 := by
  intro fuel
  induction fuel with
  | zero => intro s w; exact .inl (Wrote.refl _)
  | succ fuel ih =>
    intro s w
    unfold RJ.handleLong
    rcases s.call k.parser with ⟨s1, e | v⟩
    · simp only
      split
      · exact .inl (Wrote.refl _)
      · generalize (if s1.jidx > 0 then ({ s1 with b := s1.b.shift 0 s1.jidx } : RJ).refresh else s1) = s2
        split
        · exact .inl (Wrote.refl _)
        · generalize RJ.backToLeading s2.b.buf (RJ.segmentEnd s2.b) = seg
          have hw : WroteOr w (if seg > 1 then RJ.writeSegment k s2.b.buf seg s2.currentIndex w else (w, .ok ())).1
              (if seg > 1 then RJ.writeSegment k s2.b.buf seg s2.currentIndex w else (w, .ok ())).2 := by
            split
            · exact writeSegment_wrote _ _ _ _ _
            · exact .inl (Wrote.refl _)
          revert hw
          rcases (if seg > 1 then RJ.writeSegment k s2.b.buf seg s2.currentIndex w else (w, .ok ())) with ⟨w1, _ | er | _ | _⟩
          · intro hw
            have hw : Wrote w w1 := by
              rcases hw with hw | ⟨_, _, _, hw⟩
              · exact hw
              · cases hw
            simp only
            rcases (if seg > 1 then s2.b.shift 1 seg else s2.b).readMore with ⟨b4, n | _ | _ | _⟩
            · simp only
              split
              · exact .inl hw
              · rcases ih ({ s2 with b := b4 } : RJ).refresh w1 with h | ⟨k', i, h, e'⟩
                · exact .inl (hw.trans h)
                · exact .inr ⟨k', i, hw.failed h, e'⟩
            · exact .inl hw
            · exact .inl hw
            · exact .inl hw
          · rintro (hw | ⟨k', i, h, e'⟩)
            · exact .inl hw
            · exact .inr ⟨k', i, h, e'⟩
          · rintro (hw | ⟨k', i, h, e'⟩)
            · exact .inl hw
            · exact .inr ⟨k', i, h, e'⟩
          · rintro (hw | ⟨k', i, h, e'⟩)
            · exact .inl hw
            · exact .inr ⟨k', i, h, e'⟩
    · simp only
      rcases writeAll_cases w v with ⟨w', h, h'⟩ | ⟨w', k', h, h'⟩ <;> rw [h]
      · exact .inl h'
      · exact .inr ⟨k', _, h', rfl⟩

/-- The same for a result of `scan_json`. -/
def CopiedOr (w w' : Writer) (r : SRes Unit) : Prop :=
  Wrote w w' ∨ ∃ k, FailedWith k w w' ∧ (r = .err (.io k) ∨ ∃ i, r = .err (.rjiter ⟨.io k, i⟩))

theorem ioResult_copied (rj : RJ) (w : Writer) (bs : Bytes) :
    CopiedOr w (ioResult rj (w.writeAll bs)).1.2 (ioResult rj (w.writeAll bs)).2 := by
  rcases writeAll_cases w bs with ⟨w', h, h'⟩ | ⟨w', k, h, h'⟩ <;> rw [h]
  · exact .inl h'
  · exact .inr ⟨k, h', .inl rfl⟩

theorem copyWord_copied {α : Type} (word : Bytes) (w : Writer) (x : RJ × Res α) :
    CopiedOr w (copyWord word w x).1.2 (copyWord word w x).2 := by
  rcases x with ⟨rj, _ | _ | _ | _⟩
  · exact ioResult_copied rj w word
  · exact .inl (Wrote.refl _)
  · exact .inl (Wrote.refl _)
  · exact .inl (Wrote.refl _)

theorem copyAtom_copied (F : Nat) (c : Byte) (rj : RJ) (w : Writer) :
    CopiedOr w (copyAtom F c rj w).1.2 (copyAtom F c rj w).2 := by
  unfold copyAtom
  by_cases h1 : c = 34
  · rw [if_pos h1]
    rcases writeAll_cases w [34] with ⟨w1, h, h'⟩ | ⟨w', k, h, h'⟩ <;> rw [h]
    · simp only
      have hl := handleLong_wrote .raw F rj w1
      rw [show RJ.handleLong .raw F rj w1 = rj.writeLongBytes F w1 from rfl] at hl
      revert hl
      rcases rj.writeLongBytes F w1 with ⟨⟨rj2, w2⟩, _ | e | _ | _⟩
      · rintro (hl | ⟨_, _, _, hl⟩)
        · rcases ioResult_copied rj2 w2 [34] with h2 | ⟨k, h2, h3⟩
          · exact .inl (h'.trans (Wrote.trans hl h2))
          · exact .inr ⟨k, h'.failed (Wrote.failed hl h2), h3⟩
        · cases hl
      · rintro (hl | ⟨k, i, hl, e'⟩)
        · exact .inl (h'.trans hl)
        · refine .inr ⟨k, h'.failed hl, .inr ⟨i, ?_⟩⟩
          injection e' with e'
          simp only [e']
      · rintro (hl | ⟨_, _, _, hl⟩)
        · exact .inl (h'.trans hl)
        · cases hl
      · rintro (hl | ⟨_, _, _, hl⟩)
        · exact .inl (h'.trans hl)
        · cases hl
    · exact .inr ⟨k, h', .inl rfl⟩
  · rw [if_neg h1]
    by_cases h2 : c = 110
    · rw [if_pos h2]; exact copyWord_copied _ _ _
    · rw [if_neg h2]
      by_cases h3 : c = 116
      · rw [if_pos h3]; exact copyWord_copied _ _ _
      · rw [if_neg h3]
        by_cases h4 : c = 102
        · rw [if_pos h4]; exact copyWord_copied _ _ _
        · rw [if_neg h4]
          rcases rj.nextNumberBytes F with ⟨rj2, _ | _ | _ | _⟩
          · exact ioResult_copied _ _ _
          · exact .inl (Wrote.refl _)
          · exact .inl (Wrote.refl _)
          · exact .inl (Wrote.refl _)

/-- The state of `idtransform` behind a step: nothing failed, or a write failed, which is remembered. -/
def Stored (w : Writer) (b : Idt) : Prop := ∃ k, FailedWith k w b.w ∧ b.ioError = some k

theorem Idt.write_cases (b : Idt) (bs : Bytes) (msg : String) :
    (∃ b', b.write bs msg = (b', none) ∧ Wrote b.w b'.w) ∨ (∃ b', b.write bs msg = (b', some msg) ∧ Stored b.w b') := by
  unfold Idt.write
  rcases writeAll_cases b.w bs with ⟨w', h, h'⟩ | ⟨w', k, h, h'⟩ <;> rw [h]
  · exact .inl ⟨_, rfl, h'⟩
  · exact .inr ⟨_, rfl, k, h', rfl⟩

theorem Wrote.stored {w w' : Writer} {b : Idt} (h : Wrote w w') (h' : Stored w' b) : Stored w b := by
  obtain ⟨k, h1, h2⟩ := h'
  exact ⟨k, h.failed h1, h2⟩

theorem Idt.writeKey_cases (b : Idt) (pre key : Bytes) (msg : String) :
    (∃ b', b.writeKey pre key msg = (b', none) ∧ Wrote b.w b'.w) ∨
    (∃ b' m, b.writeKey pre key msg = (b', some m) ∧ Stored b.w b') := by
  unfold Idt.writeKey
  rcases b.write_cases pre msg with ⟨b1, e1, h1⟩ | ⟨b1, e1, h1⟩ <;> rw [e1]
  · simp only
    rcases b1.write_cases key "IO error writing key" with ⟨b2, e2, h2⟩ | ⟨b2, e2, h2⟩ <;> rw [e2]
    · simp only
      rcases b2.write_cases [34, 58] "IO error writing key suffix" with ⟨b3, e3, h3⟩ | ⟨b3, e3, h3⟩ <;> rw [e3]
      · exact .inl ⟨_, rfl, h1.trans (h2.trans h3)⟩
      · exact .inr ⟨_, _, rfl, h1.stored (h2.stored h3)⟩
    · exact .inr ⟨_, _, rfl, h1.stored h2⟩
  · exact .inr ⟨_, _, rfl, h1⟩

theorem Idt.writeSeqpos_cases (b : Idt) :
    (∃ b', b.writeSeqpos = (b', none) ∧ Wrote b.w b'.w) ∨ (∃ b' m, b.writeSeqpos = (b', some m) ∧ Stored b.w b') := by
  unfold Idt.writeSeqpos
  rcases b.seqpos with _ | _ | key | key | _
  · exact .inl ⟨_, rfl, Wrote.refl _⟩
  · simp only
    rcases b.write_cases (if b.isTop then [32] else [44]) "IO error writing sequence position" with ⟨b1, e1, h1⟩ | ⟨b1, e1, h1⟩ <;> rw [e1]
    · exact .inl ⟨_, rfl, h1⟩
    · exact .inr ⟨_, _, rfl, h1⟩
  · exact b.writeKey_cases _ _ _
  · exact b.writeKey_cases _ _ _
  · exact .inl ⟨_, rfl, Wrote.refl _⟩

/-- What holds behind an action that was called in the state `b0`. -/
def ActedOn (w : Writer) (x : (RJ × Idt) × Acted) : Prop :=
  match x with
  | ((_, b), .op (.error _)) => Wrote w b.w ∨ Stored w b
  | ((_, b), _) => Wrote w b.w

theorem storeError_w (b : Idt) (e : SErr) : (b.storeError e).w = b.w := by
  unfold Idt.storeError
  split
  · rfl
  · split <;> rfl
  · rfl

theorem onAtom_acted (F : Nat) (rj : RJ) (b : Idt) : ActedOn b.w (Idt.onAtom F rj b) := by
  unfold Idt.onAtom
  rcases b.writeSeqpos_cases with ⟨b1, e1, h1⟩ | ⟨b1, m, e1, h1⟩ <;> rw [e1]
  · simp only
    rcases rj.peek F with ⟨rj2, c | e | _ | _⟩
    · simp only
      have hc := copyAtom_copied F c rj2 b1.w
      revert hc
      rcases copyAtom F c rj2 b1.w with ⟨⟨rj3, w3⟩, _ | e | _ | _⟩
      · rintro (hc | ⟨_, _, hc | ⟨_, hc⟩⟩)
        · exact h1.trans hc
        · cases hc
        · cases hc
      · rintro (hc | ⟨k, hc, he | ⟨i, he⟩⟩)
        · refine .inl ?_
          rw [storeError_w]
          exact h1.trans hc
        · refine .inr ⟨k, ?_, ?_⟩
          · rw [storeError_w]
            exact h1.failed hc
          · injection he with he
            subst he
            rfl
        · refine .inr ⟨k, ?_, ?_⟩
          · rw [storeError_w]
            exact h1.failed hc
          · injection he with he
            subst he
            rfl
      · rintro (hc | ⟨_, _, hc | ⟨_, hc⟩⟩)
        · exact h1.trans hc
        · cases hc
        · cases hc
      · rintro (hc | ⟨_, _, hc | ⟨_, hc⟩⟩)
        · exact h1.trans hc
        · cases hc
        · cases hc
    · refine .inl ?_
      rw [storeError_w]
      exact h1
    · exact h1
    · exact h1
  · exact .inr h1

theorem onStruct_acted (bs : Bytes) (rj : RJ) (b : Idt) : ActedOn b.w (Idt.onStruct bs rj b) := by
  unfold Idt.onStruct
  rcases b.writeSeqpos_cases with ⟨b1, e1, h1⟩ | ⟨b1, m, e1, h1⟩ <;> rw [e1]
  · simp only
    rcases b1.write_cases bs "IO error writing struct" with ⟨b2, e2, h2⟩ | ⟨b2, e2, h2⟩ <;> rw [e2]
    · exact h1.trans h2
    · exact .inr (h1.stored h2)
  · exact .inr h1

theorem onKey_acted (rj : RJ) (b : Idt) : ActedOn b.w (Idt.onKey rj b) := by
  unfold Idt.onKey
  rcases b.writeSeqpos_cases with ⟨b1, e1, h1⟩ | ⟨b1, m, e1, h1⟩ <;> rw [e1]
  · exact h1
  · exact .inr h1

theorem ActedOn.from {w w' : Writer} {x : (RJ × Idt) × Acted} (h : ActedOn w' x) (hw : Wrote w w') : ActedOn w x := by
  rcases x with ⟨⟨s, b⟩, (_ | _ | m) | _ | _⟩
  · exact hw.trans h
  · exact hw.trans h
  · rcases h with h | h
    · exact .inl (hw.trans h)
    · exact .inr (hw.stored h)
  · exact hw.trans h
  · exact hw.trans h

theorem callbacks_keep (F : Nat) (w : Writer) :
    Keeps (Idt.callbacks F) (fun b => Wrote w b.w) (fun _ _ b => Wrote w b.w ∨ Stored w b) := by
  constructor
  · intro p c b h
    simp only [Idt.callbacks]
    cases p with
    | array =>
      refine ⟨h, fun a e s => ?_⟩
      injection e with e
      subst e
      have hx := ActedOn.from (onStruct_acted [91] s (Idt.find F .array c b).1) h
      revert hx
      rcases Idt.onStruct [91] s (Idt.find F .array c b).1 with ⟨⟨s, b⟩, (_ | _ | m) | _ | _⟩ <;> exact id
    | object =>
      refine ⟨h, fun a e s => ?_⟩
      injection e with e
      subst e
      have hx := ActedOn.from (onStruct_acted [123] s (Idt.find F .object c b).1) h
      revert hx
      rcases Idt.onStruct [123] s (Idt.find F .object c b).1 with ⟨⟨s, b⟩, (_ | _ | m) | _ | _⟩ <;> exact id
    | atom =>
      refine ⟨h, fun a e s => ?_⟩
      injection e with e
      subst e
      have hx := ActedOn.from (onAtom_acted F s (Idt.find F .atom c b).1) h
      revert hx
      rcases Idt.onAtom F s (Idt.find F .atom c b).1 with ⟨⟨s, b⟩, (_ | _ | m) | _ | _⟩ <;> exact id
    | none =>
      simp only [Idt.find]
      rcases c.path with _ | ⟨key, r⟩
      · exact ⟨h, nofun⟩
      · simp only
        by_cases hk : key ≠ nameTop ∧ key ≠ nameArray
        · rw [if_pos hk]
          refine ⟨h, fun a e s => ?_⟩
          injection e with e
          subst e
          have hx := ActedOn.from (w := w) (onKey_acted s { b with seqpos := if b.seqpos = .atBeginning then .atBeginningKey key else .inMiddleKey key }) h
          revert hx
          simp only
          generalize Idt.onKey s _ = x
          rcases x with ⟨⟨s, b⟩, (_ | _ | m) | _ | _⟩ <;> exact id
        · rw [if_neg hk]
          exact ⟨h, nofun⟩
  · intro p c b h
    have hend : ∀ b : Idt, Wrote w b.w → ∀ bs, match Idt.onStructEnd bs b with
        | (b', some _) => RJ → Wrote w b'.w ∨ Stored w b'
        | (b', none) => Wrote w b'.w := by
      intro b h bs
      unfold Idt.onStructEnd
      rcases Idt.write_cases { b with seqpos := .inMiddle } bs "IO error writing struct end" with ⟨b1, e1, h1⟩ | ⟨b1, e1, h1⟩ <;> rw [e1]
      · exact h.trans h1
      · exact fun _ => .inr (h.stored h1)
    simp only [Idt.callbacks]
    cases p with
    | array =>
      refine ⟨h, fun a e => ?_⟩
      injection e with e
      subst e
      have hx := hend (Idt.findEnd .array c b).1 h [93]
      revert hx
      rcases Idt.onStructEnd [93] (Idt.findEnd .array c b).1 with ⟨b, _ | m⟩ <;> exact id
    | object =>
      refine ⟨h, fun a e => ?_⟩
      injection e with e
      subst e
      have hx := hend (Idt.findEnd .object c b).1 h [125]
      revert hx
      rcases Idt.onStructEnd [125] (Idt.findEnd .object c b).1 with ⟨b, _ | m⟩ <;> exact id
    | atom => exact ⟨h, nofun⟩
    | none => exact ⟨h, nofun⟩

/-- **C39.** For any input, pool and writer: either no write has failed, or the last write failed, and `idtransform`
returns the I/O error of that write. What was written before is kept. -/
theorem C39_write_error (turns F : Nat) (rj : RJ) (w : Writer) (pool : Pool) :
    Wrote w (idtransform turns F rj w pool).1.2.1 ∨
    ∃ k, FailedWith k w (idtransform turns F rj w pool).1.2.1 ∧ (idtransform turns F rj w pool).2 = .err (.io k) := by
  have h := scan_keeps (callbacks_keep F w) turns F ⟨[], true⟩ ⟨rj, .new w, pool⟩ (Wrote.refl w)
  unfold idtransform
  revert h
  rcases scan turns F (Idt.callbacks F) ⟨[], true⟩ ⟨rj, .new w, pool⟩ with ⟨st, _ | e | _ | _⟩
  · rintro (⟨h, _⟩ | ⟨_, h, _⟩)
    · exact .inl h
    · cases h
  · rintro (⟨h, _⟩ | ⟨_, _, h | ⟨k, h, h'⟩⟩)
    · exact .inl h
    · exact .inl h
    · refine .inr ⟨k, h, ?_⟩
      have h' : st.baton.ioError = some k := h'
      simp only [Idt.error, h']
  · rintro (⟨h, _⟩ | ⟨_, h, _⟩)
    · exact .inl h
    · cases h
  · rintro (⟨h, _⟩ | ⟨_, h, _⟩)
    · exact .inl h
    · cases h

/-- The fourth write of ` [{"k": [1,true]}, "x"] ` is cut off behind its first byte. -/
example : (idtransform 40 100 exSt.rj ⟨[], [none, none, none, some ⟨7, 1⟩, none]⟩ exPool).1.2.1 =
      ⟨"[{\"k".toUTF8.toList, [none]⟩ ∧
    (idtransform 40 100 exSt.rj ⟨[], [none, none, none, some ⟨7, 1⟩, none]⟩ exPool).2 = .err (.io 7) ∧
    FailedWith 7 ⟨[], [none, none, none, some ⟨7, 1⟩, none]⟩ ⟨"[{\"k".toUTF8.toList, [none]⟩ := by
  refine ⟨by decide +kernel, by decide +kernel, [none, none, none], ⟨7, 1⟩, rfl, by simp, rfl, List.nil_prefix⟩

end Verif.Scan
