import Verif.Scan.Io
import Verif.Scan.ReturnsProps

/-!
# Properties C61 and C62: what `scan` and `idtransform` do when the reader fails
-/

namespace Verif.Scan

open Verif.RJiter
open Verif.U8Pool (Pool PRes PoolError)

variable {β : Type}

/-! ## C61 -/

/-- **C61**, first part (partial). The full property is: when the reader fails during `scan`, `scan` returns the error of the reader;
and `scan` returns an I/O error only when the reader has failed. Here there are no tokens, an action that has met a failure returns an
error, and one failure may be reported as `UnhandledPeek`. So: after `Ok`, the reader has not failed; an I/O error is the first failure;
`UnhandledPeek` hides at most one failure; after all other errors, except those of the actions, the reader has not failed.

The property is false without these exceptions: see `C61_hidden` and `C61_dropped`. -/
theorem C61_reported_partial {cb : Callbacks β} (hC : Honest True cb) (F : Nat) {opt : Options} (ht : opt.sseTokens = []) (n : Nat) (st : St β) :
    match (scan n F cb opt st).2 with
    | .ok () => st.faults = (scan n F cb opt st).1.faults
    | .err (.rjiter ⟨.io k, _⟩) => st.faults = k :: (scan n F cb opt st).1.faults
    | .err (.unhandledPeek _ _) => st.faults = (scan n F cb opt st).1.faults ∨ ∃ k, st.faults = k :: (scan n F cb opt st).1.faults
    | .err (.action _ _) => True
    | .err _ => st.faults = (scan n F cb opt st).1.faults
    | .panic => True
    | .diverge => True := by
  have h := scan_io (F := F) hC (fun _ => ht) n st
  have hl : ∀ {f g : List Nat}, Lost True f g → f = g := by
    intro f g ⟨l, e, hl⟩
    rw [e, hl trivial]; rfl
  generalize scan n F cb opt st = x at h ⊢
  rcases x with ⟨st', _ | (⟨_ | _ | k | _, i⟩ | _ | _ | _ | _ | _ | _) | _ | _⟩
  all_goals first
    | trivial
    | exact hl h
    | exact h.imp hl (fun ⟨k, hk⟩ => ⟨k, hl hk⟩)

/-- **C61**, second part: whatever the tokens and the actions are, an I/O error of `scan` is one of the failures of the reader, namely the
last one that has happened. -/
theorem C61_real {cb : Callbacks β} (hC : Honest False cb) (F : Nat) (opt : Options) (n : Nat) (st : St β) (k i : Nat)
    (h : (scan n F cb opt st).2 = .err (.rjiter ⟨.io k, i⟩)) : ∃ l, st.faults = l ++ k :: (scan n F cb opt st).1.faults := by
  have hr := scan_io (F := F) (opt := opt) hC (fun h => h.elim) n st
  rw [h] at hr
  obtain ⟨l, e, _⟩ := hr
  exact ⟨l, e⟩

/-- If the scan is not to stop early and returns `Ok`, the reader is at its end. -/
theorem scan_end {cb : Callbacks β} {F : Nat} {K : β → Prop} {R : Room} {opt : Options} (hF : Fair cb F K)
    (ht : ∀ t ∈ opt.sseTokens, t ≠ []) (hs : opt.stopEarly = false) {st : St β} (hu : Usable F st.rj) (hk : K st.baton)
    (hcl : opt.sseTokens ≠ [] → st.rj.b.reader.Clean) {l : List (Pos × Bytes)} (hl : Holds st.pool R l) (n : Nat)
    (h : (scan n F cb opt st).2 = .ok ()) : (scan n F cb opt st).1.rj.b.reader = [] := by
  unfold scan at h ⊢
  by_cases hfit : R.Fits (names l) nameTop
  · obtain ⟨p', r, e, hp⟩ := hl.push .top nameTop hfit
    rw [e] at h ⊢
    exact mainLoop_end (R := R) hF (tokensRun ht) hs n false .top { st with pool := p' }
      ⟨⟨hu, hcl⟩, hk, _, hp, .top _ _, ⟨_, _, rfl⟩⟩ h
  · obtain ⟨p', er, e, _⟩ := hl.push_full .top nameTop hfit
    rw [e] at h
    simp at h

/-- **C61**, third part: if the scan is not to stop early and the reader fails at least once, `scan` does not return `Ok`, whatever the
bytes are. -/
theorem C61_not_ok {cb : Callbacks β} {F : Nat} {K : β → Prop} {R : Room} (hC : Honest True cb) (hF : Fair cb F K) {st : St β}
    (hu : Usable F st.rj) (hk : K st.baton) {l : List (Pos × Bytes)} (hl : Holds st.pool R l) (n : Nat) (hfl : st.faults ≠ []) :
    (scan n F cb ⟨[], false⟩ st).2 ≠ .ok () := by
  intro h
  have h1 := C61_reported_partial hC F (opt := ⟨[], false⟩) rfl n st
  rw [h] at h1
  have h2 := scan_end hF (opt := ⟨[], false⟩) (by simp) rfl hu hk (by simp) hl n h
  simp only [St.faults, h2] at h1
  exact hfl h1

theorem idle_honest (c : Prop) : Honest c idle := by
  intro p ctx b b' act s h
  simp [idle] at h

theorem idle_fair (F : Nat) : Fair idle F (fun _ => True) := fair_of (fun p path b b' act s h => by simp [idle] at h)

/-- `[1,` a failure `2]`: the failure is the result. -/
example : Honest True idle ∧ Fair idle 50 (fun _ => True) ∧ Usable 50 (.new [.data 91 [49, 44], .fail 7, .data 50 [93]] (List.replicate 16 0)) ∧
    Holds exPool exRoom [] ∧ Reader.faults [.data 91 [49, 44], .fail 7, .data 50 [93]] = [7] ∧
    (scan 50 50 idle ⟨[], false⟩ ⟨.new [.data 91 [49, 44], .fail 7, .data 50 [93]] (List.replicate 16 0), (), exPool⟩).2 =
      .err (.rjiter ⟨.io 7, 1⟩) :=
  ⟨idle_honest _, idle_fair _, usable_new _ _ _ (by decide) (by decide), exPool_holds, rfl, by decide +kernel⟩

/-- Negation of property C61: the reader fails in the middle of the number of `[123]`, and `scan` returns `UnhandledPeek` instead of the
error of the reader. -/
theorem C61_hidden :
    (scan 50 50 idle ⟨[], false⟩ ⟨.new [.data 91 [49, 50], .fail 7, .data 51 [93]] (List.replicate 16 0), (), exPool⟩).2 =
      .err (.unhandledPeek 49 3) := by decide +kernel

/-- Negation of property C61, with tokens: the reader fails once, and `scan` returns `Ok`. The token `data:` has arrived when the reader
fails; `event:` is tried first, has six bytes, and `scan` drops the error of the reader. -/
theorem C61_dropped :
    (scan 50 50 idle ⟨[[101, 118, 101, 110, 116, 58], [100, 97, 116, 97, 58]], false⟩
      ⟨.new [.data 100 [97, 116, 97, 58], .fail 7, .data 32 [49, 32]] (List.replicate 16 0), (), exPool⟩).2 = .ok () := by decide +kernel

/-! ## C62 -/

/-- A parser error with the type of an I/O error was a failure of the reader. -/
theorem lost_of_told {α : Type} {b b' : Buffer} {r : Res α} (h : Told b b' r) : Lost False b.reader.faults b'.reader.faults := by
  rcases r with _ | ⟨_ | _ | k | _, i⟩ | _ | _
  all_goals first | exact .of h | exact (Lost.refl False _).trans ⟨[k], h.1, False.elim⟩

theorem lost_of_toldW {s s' : RJ} {w w' : Writer} {r : Res Unit} (h : ToldW s s' w w' r) :
    Lost False s.b.reader.faults s'.b.reader.faults := by
  rcases r with _ | ⟨_ | _ | k | _, i⟩ | _ | _
  all_goals first
    | exact .of h.1
    | (rcases h with h | h
       · exact ⟨[k], h.1, False.elim⟩
       · exact .of h.1)

/-- The failures during `copy_atom`. -/
def CopyIo (s : RJ) (x : (RJ × Writer) × SRes Unit) : Prop :=
  match x with
  | ((s', _), .ok ()) => s.b.reader.faults = s'.b.reader.faults
  | ((s', _), _) => Lost False s.b.reader.faults s'.b.reader.faults

theorem ioResult_io {s s' : RJ} (h : s.b.reader.faults = s'.b.reader.faults) (x : Writer × Option Nat) : CopyIo s (ioResult s' x) := by
  rcases x with ⟨w, _ | k⟩
  · exact h
  · exact .of h

theorem copyWord_io {α : Type} {s : RJ} {x : RJ × Res α} (h : Told s.b x.1.b x.2) (word : Bytes) (w : Writer) : CopyIo s (copyWord word w x) := by
  rcases x with ⟨s', v | e | _ | _⟩
  · exact ioResult_io h _
  · exact lost_of_told h
  · exact lost_of_told h
  · exact lost_of_told h

theorem copyAtom_io (F : Nat) (s : RJ) (c : Byte) (w : Writer) : CopyIo s (copyAtom F c s w) := by
  unfold copyAtom
  split
  · rcases w.writeAll [34] with ⟨w1, _ | k⟩
    · simp only [RJ.writeLongBytes]
      have := RJ.handleLong_toldW .raw F s w1
      generalize RJ.handleLong .raw F s w1 = x at this ⊢
      rcases x with ⟨⟨s', w2⟩, _ | e | _ | _⟩
      · exact ioResult_io this.1 _
      · exact lost_of_toldW this
      · exact lost_of_toldW this
      · exact lost_of_toldW this
    · exact .refl _ _
  · split
    · exact copyWord_io (RJ.loopUntilSuccess_told _ _ _ _ _) _ _
    · split
      · exact copyWord_io (RJ.loopUntilSuccess_told _ _ _ _ _) _ _
      · split
        · exact copyWord_io (RJ.loopUntilSuccess_told _ _ _ _ _) _ _
        · have : Told s.b (s.nextNumberBytes F).1.b (s.nextNumberBytes F).2 := RJ.loopUntilSuccess_told _ _ _ _ _
          generalize s.nextNumberBytes F = x at this ⊢
          rcases x with ⟨s', v | e | _ | _⟩
          · exact ioResult_io this _
          · exact lost_of_told this
          · exact lost_of_told this
          · exact lost_of_told this

theorem onAtom_io (F : Nat) (s : RJ) (b : Idt) : Owns True s (Idt.onAtom F s b) := by
  unfold Idt.onAtom
  rcases b.writeSeqpos with ⟨b, _ | m⟩
  · simp only
    have hp : Told s.b (s.peek F).1.b (s.peek F).2 := RJ.loopUntilSuccess_told _ _ _ _ _
    generalize s.peek F = x at hp ⊢
    rcases x with ⟨s1, c | e | _ | _⟩
    · have hc := copyAtom_io F s1 c b.w
      have hp' : s.b.reader.faults = s1.b.reader.faults := hp
      simp only
      generalize copyAtom F c s1 b.w = y at hc ⊢
      rcases y with ⟨⟨s2, w⟩, _ | e | _ | _⟩
      · exact .of (hp'.trans hc)
      all_goals exact (Lost.of hp').trans hc
    · exact lost_of_told hp
    · exact lost_of_told hp
    · exact lost_of_told hp
  · exact .refl _ _

theorem idt_honest (F : Nat) : Honest True (Idt.callbacks F) := by
  intro p ctx b b' act s h
  simp only [Idt.callbacks, Idt.find] at h
  have hstruct : ∀ (bs : Bytes) (b : Idt), Owns True s (Idt.onStruct bs s b) := by
    intro bs b
    unfold Idt.onStruct
    rcases b.writeSeqpos with ⟨b, _ | m⟩
    · simp only
      rcases b.write bs "IO error writing struct" with ⟨b, _ | m⟩ <;> exact .refl _ _
    · exact .refl _ _
  cases p with
  | atom =>
    simp only [Prod.mk.injEq, Option.some.injEq] at h
    rw [← h.2]; exact onAtom_io F s _
  | object =>
    simp only [Prod.mk.injEq, Option.some.injEq] at h
    rw [← h.2]; exact hstruct _ _
  | array =>
    simp only [Prod.mk.injEq, Option.some.injEq] at h
    rw [← h.2]; exact hstruct _ _
  | none =>
    simp only at h
    split at h
    · split at h
      · simp only [Prod.mk.injEq, Option.some.injEq] at h
        rw [← h.2]
        unfold Idt.onKey
        rcases b'.writeSeqpos with ⟨b, _ | m⟩ <;> exact .refl _ _
      · simp at h
    · simp at h

/-- **C62** (partial). The full property is: when the reader fails during `idtransform`, `idtransform` returns the error of the reader. Here:
it does not return `Ok`. That the error can be another one shows `C62_hidden`. -/
theorem C62_not_ok_partial (n F : Nat) (s : RJ) (w : Writer) (pool : Pool) (h : (idtransform n F s w pool).2 = .ok ()) :
    s.b.reader.faults = (idtransform n F s w pool).1.1.b.reader.faults := by
  have := C61_reported_partial (idt_honest F) F (opt := ⟨[], true⟩) rfl n ⟨s, .new w, pool⟩
  unfold idtransform at h ⊢
  generalize scan n F (Idt.callbacks F) ⟨[], true⟩ ⟨s, .new w, pool⟩ = x at this h ⊢
  rcases x with ⟨st, _ | e | _ | _⟩
  · exact this
  · simp at h
  · simp at h
  · simp at h

/-- `[12` a failure `3]`, without the failure; and `[1,` with a failure that is found. -/
example :
    (idtransform 50 50 (.new [.data 91 [49, 50], .data 51 [93]] (List.replicate 16 0)) ⟨[], []⟩ exPool).2 = .ok () ∧
    (idtransform 50 50 (.new [.data 91 [49, 44], .fail 7, .data 50 [93]] (List.replicate 16 0)) ⟨[], []⟩ exPool).2 =
      .err (.rjiter ⟨.io 7, 1⟩) := ⟨by decide +kernel, by decide +kernel⟩

/-- Negation of property C62: the reader fails in the middle of the number of `[123]`, and `idtransform` returns `UnhandledPeek` instead of
the error of the reader. -/
theorem C62_hidden :
    (idtransform 50 50 (.new [.data 91 [49, 50], .fail 7, .data 51 [93]] (List.replicate 16 0)) ⟨[], []⟩ exPool).2 =
      .err (.unhandledPeek 49 3) := by decide +kernel

end Verif.Scan
