import Verif.Scan.IdtFail
import Verif.Scan.Until

/-!
# A writer that fails, compared with one that does not

The two are called by the same run of `write_long_bytes`, `write_long_str` and `idtransform`, on any input (property C74).
-/

namespace Verif.Scan

open Verif.U8Pool (Pool)
open Verif.RJiter

/-- A writer with the same contents that never fails. -/
def _root_.Verif.RJiter.Writer.perfect (w : Writer) : Writer := ⟨w.out, []⟩

theorem writeAll_led (w : Writer) (bs : Bytes) :
    (∃ w', w.writeAll bs = (w', none) ∧ w.perfect.writeAll bs = (w'.perfect, none)) ∨
    (∃ w' k, w.writeAll bs = (w', some k) ∧ (w.perfect.writeAll bs).2 = none ∧ w'.out <+: (w.perfect.writeAll bs).1.out) := by
  rcases w with ⟨out, _ | ⟨_ | f, plan⟩⟩
  · exact .inl ⟨_, rfl, rfl⟩
  · exact .inl ⟨_, rfl, rfl⟩
  · refine .inr ⟨_, f.kind, rfl, rfl, ?_⟩
    simp only [Writer.perfect, Writer.writeAll]
    exact (List.prefix_append_right_inj _).2 (List.take_prefix _ _)

/-- A call with a writer, and the same call with the perfect one. -/
def LedRes {σ ε α : Type} (err : ε → Option α) (x y : (σ × Writer) × ε) : Prop :=
  y = ((x.1.1, x.1.2.perfect), x.2) ∨ ((∃ e, err x.2 = some e) ∧ x.1.2.out <+: y.1.2.out)

/-- The error of a parser call. -/
def resErr {α : Type} : Res α → Option Err
  | .err e => some e
  | _ => none

theorem writeSegment_led (k : RJ.Kind) (buf : Bytes) (e i : Nat) (w : Writer) :
    (RJ.writeSegment k buf e i w.perfect = ((RJ.writeSegment k buf e i w).1.perfect, (RJ.writeSegment k buf e i w).2)) ∨
    ((∃ er, (RJ.writeSegment k buf e i w).2 = .err er) ∧ (RJ.writeSegment k buf e i w).1.out <+: (RJ.writeSegment k buf e i w.perfect).1.out) := by
  cases k with
  | raw =>
    simp only [RJ.writeSegment]
    rcases writeAll_led w ((buf.take e).drop 1) with ⟨w', h, h'⟩ | ⟨w', k, h, h1, h2⟩
    · rw [h, h']
      exact .inl rfl
    · rw [h]
      refine .inr ⟨⟨_, rfl⟩, ?_⟩
      revert h1 h2
      rcases w.perfect.writeAll ((buf.take e).drop 1) with ⟨w2, _ | _⟩
      · exact fun _ h => h
      · exact nofun
  | str =>
    simp only [RJ.writeSegment]
    rcases Jiter.knownStr (buf.take e ++ [34]) with ⟨n, er | v⟩
    · exact .inl rfl
    · simp only
      rcases writeAll_led w v with ⟨w', h, h'⟩ | ⟨w', k, h, h1, h2⟩
      · rw [h, h']
        exact .inl rfl
      · rw [h]
        refine .inr ⟨⟨_, rfl⟩, ?_⟩
        revert h1 h2
        rcases w.perfect.writeAll v with ⟨w2, _ | _⟩
        · exact fun _ h => h
        · exact nofun

theorem WroteOr.prefix {α : Type} {w w' : Writer} {r : Res α} (h : WroteOr w w' r) : w.out <+: w'.out := by
  rcases h with ⟨_, _, _, h⟩ | ⟨_, _, ⟨_, _, _, _, _, h⟩, _⟩ <;> exact h

theorem handleLong_led (k : RJ.Kind) : ∀ (fuel : Nat) (s : RJ) (w : Writer),
    LedRes resErr (RJ.handleLong k fuel s w) (RJ.handleLong k fuel s w.perfect) := by
  intro fuel
  induction fuel with
  | zero => intro s w; exact .inl rfl
  | succ fuel ih =>
    intro s w
    unfold RJ.handleLong
    rcases s.call k.parser with ⟨s1, e | v⟩
    · simp only
      split
      · exact .inl rfl
      · generalize (if s1.jidx > 0 then ({ s1 with b := s1.b.shift 0 s1.jidx } : RJ).refresh else s1) = s2
        split
        · exact .inl rfl
        · generalize RJ.backToLeading s2.b.buf (RJ.segmentEnd s2.b) = seg
          have hw : ((if seg > 1 then RJ.writeSegment k s2.b.buf seg s2.currentIndex w.perfect else (w.perfect, .ok ())) =
              ((if seg > 1 then RJ.writeSegment k s2.b.buf seg s2.currentIndex w else (w, .ok ())).1.perfect,
                (if seg > 1 then RJ.writeSegment k s2.b.buf seg s2.currentIndex w else (w, .ok ())).2)) ∨
              ((∃ er, (if seg > 1 then RJ.writeSegment k s2.b.buf seg s2.currentIndex w else (w, .ok ())).2 = .err er) ∧
                (if seg > 1 then RJ.writeSegment k s2.b.buf seg s2.currentIndex w else (w, .ok ())).1.out <+:
                (if seg > 1 then RJ.writeSegment k s2.b.buf seg s2.currentIndex w.perfect else (w.perfect, .ok ())).1.out) := by
            split
            · exact writeSegment_led _ _ _ _ _
            · exact .inl rfl
          rcases hw with hw | ⟨⟨er, he⟩, hw⟩
          · rw [hw]
            rcases (if seg > 1 then RJ.writeSegment k s2.b.buf seg s2.currentIndex w else (w, .ok ())) with ⟨w1, _ | er | _ | _⟩
            · simp only
              rcases (if seg > 1 then s2.b.shift 1 seg else s2.b).readMore with ⟨b4, n | _ | _ | _⟩
              · simp only
                split
                · exact .inl rfl
                · exact ih ({ s2 with b := b4 } : RJ).refresh w1
              · exact .inl rfl
              · exact .inl rfl
              · exact .inl rfl
            · exact .inl rfl
            · exact .inl rfl
            · exact .inl rfl
          · revert he hw
            rcases (if seg > 1 then RJ.writeSegment k s2.b.buf seg s2.currentIndex w else (w, .ok ())) with ⟨w1, _ | er | _ | _⟩
            · exact nofun
            · intro hw _
              refine .inr ⟨⟨er, rfl⟩, ?_⟩
              revert hw
              rcases (if seg > 1 then RJ.writeSegment k s2.b.buf seg s2.currentIndex w.perfect else (w.perfect, .ok ())) with ⟨w2, _ | er | _ | _⟩
              · intro hw
                simp only at hw ⊢
                rcases (if seg > 1 then s2.b.shift 1 seg else s2.b).readMore with ⟨b4, n | _ | _ | _⟩
                · simp only
                  split
                  · exact hw
                  · exact hw.trans (handleLong_wrote k fuel ({ s2 with b := b4 } : RJ).refresh w2).prefix
                · exact hw
                · exact hw
                · exact hw
              · exact id
              · exact id
              · exact id
            · exact nofun
            · exact nofun
    · simp only
      rcases writeAll_led w v with ⟨w', h, h'⟩ | ⟨w', k', h, h1, h2⟩
      · rw [h, h']
        exact .inl rfl
      · rw [h]
        refine .inr ⟨⟨_, rfl⟩, ?_⟩
        revert h1 h2
        rcases w.perfect.writeAll v with ⟨w2, _ | _⟩
        · exact fun _ h => h
        · exact nofun

/-! ## `copy_atom` -/

theorem ioResult_led (rj : RJ) (w : Writer) (bs : Bytes) : LedRes SRes.error (ioResult rj (w.writeAll bs)) (ioResult rj (w.perfect.writeAll bs)) := by
  rcases writeAll_led w bs with ⟨w', h, h'⟩ | ⟨w', k, h, h1, h2⟩
  · rw [h, h']
    exact .inl rfl
  · rw [h]
    refine .inr ⟨⟨_, rfl⟩, ?_⟩
    revert h1 h2
    rcases w.perfect.writeAll bs with ⟨w2, _ | _⟩
    · exact fun _ h => h
    · exact nofun

theorem copyWord_led {α : Type} (word : Bytes) (w : Writer) (x : RJ × Res α) : LedRes SRes.error (copyWord word w x) (copyWord word w.perfect x) := by
  rcases x with ⟨rj, _ | _ | _ | _⟩
  · exact ioResult_led rj w word
  · exact .inl rfl
  · exact .inl rfl
  · exact .inl rfl

theorem CopiedOr.prefix {w w' : Writer} {r : SRes Unit} (h : CopiedOr w w' r) : w.out <+: w'.out := by
  rcases h with ⟨_, _, _, h⟩ | ⟨_, ⟨_, _, _, _, _, h⟩, _⟩ <;> exact h

/-- Behind the opening quote. -/
def copyRest (fuel : Nat) (rj : RJ) (w : Writer) : (RJ × Writer) × SRes Unit :=
  match rj.writeLongBytes fuel w with
  | ((rj, w), .ok ()) => ioResult rj (w.writeAll [34])
  | ((rj, w), .err e) => ((rj, w), .err (.rjiter e))
  | ((rj, w), .panic) => ((rj, w), .panic)
  | ((rj, w), .diverge) => ((rj, w), .diverge)

theorem copyRest_prefix (F : Nat) (rj : RJ) (w : Writer) : w.out <+: (copyRest F rj w).1.2.out := by
  unfold copyRest
  have hl := (handleLong_wrote .raw F rj w).prefix
  rw [show RJ.handleLong .raw F rj w = rj.writeLongBytes F w from rfl] at hl
  revert hl
  rcases rj.writeLongBytes F w with ⟨⟨rj2, w2⟩, _ | e | _ | _⟩
  · exact fun hl => hl.trans (ioResult_copied rj2 w2 [34]).prefix
  · exact id
  · exact id
  · exact id

theorem copyRest_led (F : Nat) (rj : RJ) (w : Writer) : LedRes SRes.error (copyRest F rj w) (copyRest F rj w.perfect) := by
  unfold copyRest
  have hl := handleLong_led .raw F rj w
  rw [show RJ.handleLong .raw F rj w = rj.writeLongBytes F w from rfl, show RJ.handleLong .raw F rj w.perfect = rj.writeLongBytes F w.perfect from rfl] at hl
  rcases hl with hl | ⟨he, hl⟩
  · rw [hl]
    rcases rj.writeLongBytes F w with ⟨⟨rj2, w2⟩, _ | e | _ | _⟩
    · exact ioResult_led rj2 w2 [34]
    · exact .inl rfl
    · exact .inl rfl
    · exact .inl rfl
  · revert he hl
    rcases rj.writeLongBytes F w with ⟨⟨rj2, w2⟩, _ | e | _ | _⟩
    · exact nofun
    · intro _ hl
      refine .inr ⟨⟨_, rfl⟩, ?_⟩
      revert hl
      rcases rj.writeLongBytes F w.perfect with ⟨⟨rj3, w3⟩, _ | e | _ | _⟩
      · exact fun hl => hl.trans (ioResult_copied rj3 w3 [34]).prefix
      · exact id
      · exact id
      · exact id
    · exact nofun
    · exact nofun

theorem copyAtom_led (F : Nat) (c : Byte) (rj : RJ) (w : Writer) : LedRes SRes.error (copyAtom F c rj w) (copyAtom F c rj w.perfect) := by
  unfold copyAtom
  by_cases h1 : c = 34
  · rw [if_pos h1, if_pos h1]
    rcases writeAll_led w [34] with ⟨w1, h, h'⟩ | ⟨w', k, h, h1, h2⟩
    · rw [h, h']
      exact copyRest_led F rj w1
    · rw [h]
      refine .inr ⟨⟨_, rfl⟩, ?_⟩
      revert h1 h2
      rcases w.perfect.writeAll [34] with ⟨w2, _ | _⟩
      · exact fun _ h => h.trans (copyRest_prefix F rj w2)
      · exact nofun
  · rw [if_neg h1, if_neg h1]
    by_cases h2 : c = 110
    · rw [if_pos h2, if_pos h2]; exact copyWord_led _ _ _
    · rw [if_neg h2, if_neg h2]
      by_cases h3 : c = 116
      · rw [if_pos h3, if_pos h3]; exact copyWord_led _ _ _
      · rw [if_neg h3, if_neg h3]
        by_cases h4 : c = 102
        · rw [if_pos h4, if_pos h4]; exact copyWord_led _ _ _
        · rw [if_neg h4, if_neg h4]
          rcases rj.nextNumberBytes F with ⟨rj2, _ | _ | _ | _⟩
          · exact ioResult_led _ _ _
          · exact .inl rfl
          · exact .inl rfl
          · exact .inl rfl

/-! ## The actions of `idtransform` -/

namespace Idt

/-- The same state with the perfect writer. -/
def perfect (b : Idt) : Idt := { b with w := b.w.perfect }

/-- A step with a writer, and the same step with the perfect one. -/
def LedStep (x y : Idt × Option String) : Prop := y = (x.1.perfect, x.2) ∨ ((∃ m, x.2 = some m) ∧ x.1.w.out <+: y.1.w.out)

theorem write_led (b : Idt) (bs : Bytes) (msg : String) : LedStep (b.write bs msg) (b.perfect.write bs msg) := by
  unfold write
  rcases writeAll_led b.w bs with ⟨w', h, h'⟩ | ⟨w', k, h, h1, h2⟩
  · rw [h, show b.perfect.w = b.w.perfect from rfl, h']
    exact .inl rfl
  · rw [h]
    refine .inr ⟨⟨_, rfl⟩, ?_⟩
    rw [show b.perfect.w = b.w.perfect from rfl]
    revert h1 h2
    rcases b.w.perfect.writeAll bs with ⟨w2, _ | _⟩
    · exact fun _ h => h
    · exact nofun

/-- `?` -/
def andThen (x : Idt × Option String) (k : Idt → Idt × Option String) : Idt × Option String :=
  match x with
  | (b, some m) => (b, some m)
  | (b, none) => k b

/-- What only adds to the output. -/
def Adds (k : Idt → Idt × Option String) : Prop := ∀ b, b.w.out <+: (k b).1.w.out

theorem write_adds (bs : Bytes) (msg : String) : Adds fun b => b.write bs msg := by
  intro b
  show b.w.out <+: (b.write bs msg).1.w.out
  rcases b.write_cases bs msg with ⟨b', h, _, _, _, h'⟩ | ⟨b', h, _, ⟨_, _, _, _, _, h'⟩, _⟩ <;> rw [h] <;> exact h'

theorem andThen_adds {j k : Idt → Idt × Option String} (hj : Adds j) (hk : Adds k) : Adds fun b => andThen (j b) k := by
  intro b
  have h := hj b
  show b.w.out <+: (andThen (j b) k).1.w.out
  revert h
  rcases j b with ⟨b', _ | m⟩
  · exact fun h => h.trans (hk b')
  · exact id

theorem andThen_led {x y : Idt × Option String} {k : Idt → Idt × Option String} (h : LedStep x y) (hk : ∀ b, LedStep (k b) (k b.perfect))
    (ha : Adds k) : LedStep (andThen x k) (andThen y k) := by
  rcases x with ⟨b, _ | m⟩
  · rcases h with h | ⟨⟨_, h⟩, _⟩
    · rw [h]
      exact hk b
    · cases h
  · rcases h with h | ⟨_, h⟩
    · rw [h]
      exact .inl rfl
    · refine .inr ⟨⟨m, rfl⟩, ?_⟩
      rcases y with ⟨b', _ | m'⟩
      · exact List.IsPrefix.trans h (ha b')
      · exact h

theorem writeKey_eq (b : Idt) (pre key : Bytes) (msg : String) : b.writeKey pre key msg =
    andThen (b.write pre msg) fun b => andThen (b.write key "IO error writing key") fun b =>
      andThen (b.write [34, 58] "IO error writing key suffix") fun b => ({ b with seqpos := .inMiddle }, none) := by
  simp only [writeKey, andThen]
  rcases b.write pre msg with ⟨b1, _ | m⟩
  · simp only
    rcases b1.write key "IO error writing key" with ⟨b2, _ | m⟩
    · simp only
      rcases b2.write [34, 58] "IO error writing key suffix" with ⟨b3, _ | m⟩ <;> rfl
    · rfl
  · rfl

theorem seqpos_adds (q : SeqPos) : Adds fun b => ({ b with seqpos := q }, none) := fun _ => List.prefix_rfl

theorem writeKey_adds (pre key : Bytes) (msg : String) : Adds fun b => b.writeKey pre key msg := by
  simp only [writeKey_eq]
  exact andThen_adds (write_adds _ _) (andThen_adds (write_adds _ _) (andThen_adds (write_adds _ _) (seqpos_adds _)))

theorem writeKey_led (b : Idt) (pre key : Bytes) (msg : String) : LedStep (b.writeKey pre key msg) (b.perfect.writeKey pre key msg) := by
  simp only [writeKey_eq]
  refine andThen_led (write_led b _ _) (fun b => ?_) (andThen_adds (write_adds _ _) (andThen_adds (write_adds _ _) (seqpos_adds _)))
  refine andThen_led (write_led b _ _) (fun b => ?_) (andThen_adds (write_adds _ _) (seqpos_adds _))
  exact andThen_led (write_led b _ _) (fun b => .inl rfl) (seqpos_adds _)

theorem writeSeqpos_adds : Adds writeSeqpos := by
  intro b
  unfold writeSeqpos
  rcases b.seqpos with _ | _ | key | key | _
  · exact List.prefix_rfl
  · simp only
    have h := write_adds (if b.isTop then [32] else [44]) "IO error writing sequence position" b
    revert h
    simp only
    rcases b.write (if b.isTop then [32] else [44]) "IO error writing sequence position" with ⟨b1, _ | m⟩ <;> exact id
  · exact writeKey_adds _ _ _ b
  · exact writeKey_adds _ _ _ b
  · exact List.prefix_rfl

theorem writeSeqpos_led (b : Idt) : LedStep b.writeSeqpos b.perfect.writeSeqpos := by
  unfold writeSeqpos
  rw [show b.perfect.seqpos = b.seqpos from rfl]
  rcases b.seqpos with _ | _ | key | key | _
  · exact .inl rfl
  · simp only
    rw [show b.perfect.isTop = b.isTop from rfl]
    have h := andThen_led (write_led b (if b.isTop then [32] else [44]) "IO error writing sequence position")
      (k := fun b => ({ b with seqpos := .inMiddle }, none)) (fun b => .inl rfl) (seqpos_adds _)
    have e : ∀ x : Idt × Option String, andThen x (fun b => ({ b with seqpos := .inMiddle }, none)) =
        match x with
        | (b, some m) => (b, some m)
        | (b, none) => ({ b with seqpos := .inMiddle }, none) := fun _ => rfl
    rw [e, e] at h
    exact h
  · exact writeKey_led b _ _ _
  · exact writeKey_led b _ _ _
  · exact .inl rfl

/-- The states are the same, apart from the writer. -/
def Rel (b g : Idt) : Prop := g = b.perfect
/-- When a write has failed. -/
def Lost (b g : Idt) : Prop := b.w.out <+: g.w.out

theorem wrote_prefix {w w' : Writer} (h : Wrote w w') : w.out <+: w'.out := by
  obtain ⟨_, _, _, h⟩ := h
  exact h

theorem stays (F : Nat) (o : Bytes) : Stays (callbacks F) fun g => o <+: g.w.out := by
  constructor
  · intro p c b h
    obtain ⟨h1, h2⟩ := (callbacks_keep F b.w).find p c b (Wrote.refl _)
    refine ⟨h.trans (wrote_prefix h1), fun a e s => ?_⟩
    have h2 := h2 a e s
    revert h2
    rcases a s ((callbacks F).find p c b).1 with ⟨⟨s, b'⟩, (_ | _ | m) | _ | _⟩
    · exact fun h' => h.trans (wrote_prefix h')
    · exact fun h' => h.trans (wrote_prefix h')
    · rintro (⟨_, _, _, h'⟩ | ⟨_, ⟨_, _, _, _, _, h'⟩, _⟩) <;> exact h.trans h'
    · exact fun h' => h.trans (wrote_prefix h')
    · exact fun h' => h.trans (wrote_prefix h')
  · intro p c b h
    obtain ⟨h1, h2⟩ := (callbacks_keep F b.w).findEnd p c b (Wrote.refl _)
    refine ⟨h.trans (wrote_prefix h1), fun a e => ?_⟩
    have h2 := h2 a e
    revert h2
    rcases a ((callbacks F).findEnd p c b).1 with ⟨b', _ | m⟩
    · exact fun h' => h.trans (wrote_prefix h')
    · intro h2 s
      rcases h2 s with ⟨_, _, _, h'⟩ | ⟨_, ⟨_, _, _, _, _, h'⟩, _⟩ <;> exact h.trans h'

theorem onKey_follows (rj : RJ) (b : Idt) : Follows Rel Lost (onKey rj b) (onKey rj b.perfect) := by
  unfold onKey
  have h := writeSeqpos_led b
  rcases h with h | ⟨h', h⟩
  · rw [h]
    rcases b.writeSeqpos with ⟨b1, _ | m⟩ <;> exact .inl ⟨rfl, rfl, rfl⟩
  · revert h h'
    rcases b.writeSeqpos with ⟨b1, _ | m⟩
    · exact nofun
    · intro _ h
      refine .inr ⟨⟨m, rfl⟩, ?_⟩
      revert h
      rcases b.perfect.writeSeqpos with ⟨b2, _ | m⟩ <;> exact id

theorem onStruct_follows (bs : Bytes) (rj : RJ) (b : Idt) : Follows Rel Lost (onStruct bs rj b) (onStruct bs rj b.perfect) := by
  unfold onStruct
  have h := writeSeqpos_led b
  rcases h with h | ⟨h', h⟩
  · rw [h]
    rcases b.writeSeqpos with ⟨b1, _ | m⟩
    · simp only
      have h := write_led b1 bs "IO error writing struct"
      rcases h with h | ⟨h', h⟩
      · rw [h]
        rcases b1.write bs "IO error writing struct" with ⟨b2, _ | m⟩ <;> exact .inl ⟨rfl, rfl, rfl⟩
      · revert h h'
        rcases b1.write bs "IO error writing struct" with ⟨b2, _ | m⟩
        · exact nofun
        · intro _ h
          refine .inr ⟨⟨m, rfl⟩, ?_⟩
          revert h
          rcases b1.perfect.write bs "IO error writing struct" with ⟨b3, _ | m⟩ <;> exact id
    · exact .inl ⟨rfl, rfl, rfl⟩
  · revert h h'
    rcases b.writeSeqpos with ⟨b1, _ | m⟩
    · exact nofun
    · intro _ h
      refine .inr ⟨⟨m, rfl⟩, ?_⟩
      revert h
      rcases b.perfect.writeSeqpos with ⟨b2, _ | m⟩
      · simp only
        intro h
        have h2 := write_adds bs "IO error writing struct" b2
        revert h2
        simp only
        rcases b2.write bs "IO error writing struct" with ⟨b3, _ | m⟩ <;> exact fun h2 => List.IsPrefix.trans h h2
      · exact id

theorem storeError_perfect (b : Idt) (e : SErr) : b.perfect.storeError e = (b.storeError e).perfect := by
  unfold storeError
  split
  · rfl
  · split <;> rfl
  · rfl

/-- The end of `on_atom`, behind `write_seqpos`. -/
def atomRest (fuel : Nat) : Action Idt := fun rj b =>
  match rj.peek fuel with
  | (rj, .ok peeked) =>
    match copyAtom fuel peeked rj b.w with
    | ((rj, w), .ok ()) => ((rj, { b with w := w }), .op .valueIsConsumed)
    | ((rj, w), .err e) => ((rj, ({ b with w := w } : Idt).storeError e), .op (.error "Error copying atom (stored in idt)"))
    | ((rj, w), .panic) => ((rj, { b with w := w }), .panic)
    | ((rj, w), .diverge) => ((rj, { b with w := w }), .diverge)
  | (rj, .err e) => ((rj, b.storeError (.rjiter e)), .op (.error "RJiter error (stored in idt)"))
  | (rj, .panic) => ((rj, b), .panic)
  | (rj, .diverge) => ((rj, b), .diverge)

theorem atomRest_adds (F : Nat) (rj : RJ) (b : Idt) : b.w.out <+: (atomRest F rj b).1.2.w.out := by
  unfold atomRest
  rcases rj.peek F with ⟨rj2, c | e | _ | _⟩
  · simp only
    have h := (copyAtom_copied F c rj2 b.w).prefix
    revert h
    rcases copyAtom F c rj2 b.w with ⟨⟨rj3, w3⟩, _ | e | _ | _⟩
    · exact id
    · simp only [storeError_w]
      exact id
    · exact id
    · exact id
  · simp only [storeError_w]
    exact List.prefix_rfl
  · exact List.prefix_rfl
  · exact List.prefix_rfl

theorem atomRest_follows (F : Nat) (rj : RJ) (b : Idt) : Follows Rel Lost (atomRest F rj b) (atomRest F rj b.perfect) := by
  unfold atomRest
  rcases rj.peek F with ⟨rj2, c | e | _ | _⟩
  · simp only
    rw [show b.perfect.w = b.w.perfect from rfl]
    rcases copyAtom_led F c rj2 b.w with h | ⟨h', h⟩
    · rw [h]
      rcases copyAtom F c rj2 b.w with ⟨⟨rj3, w3⟩, _ | e | _ | _⟩
      · exact .inl ⟨rfl, rfl, rfl⟩
      · exact .inl ⟨rfl, rfl, storeError_perfect ({ b with w := w3 }) e⟩
      · exact .inl ⟨rfl, rfl, rfl⟩
      · exact .inl ⟨rfl, rfl, rfl⟩
    · revert h h'
      rcases copyAtom F c rj2 b.w with ⟨⟨rj3, w3⟩, _ | e | _ | _⟩
      · exact nofun
      · intro _ h
        refine .inr ⟨⟨_, rfl⟩, ?_⟩
        show _ <+: _
        simp only [storeError_w]
        revert h
        rcases copyAtom F c rj2 b.w.perfect with ⟨⟨rj4, w4⟩, _ | e | _ | _⟩
        · exact id
        · simp only [storeError_w]
          exact id
        · exact id
        · exact id
      · exact nofun
      · exact nofun
  · exact .inl ⟨rfl, rfl, storeError_perfect b (.rjiter e)⟩
  · exact .inl ⟨rfl, rfl, rfl⟩
  · exact .inl ⟨rfl, rfl, rfl⟩

theorem onAtom_follows (F : Nat) (rj : RJ) (b : Idt) : Follows Rel Lost (onAtom F rj b) (onAtom F rj b.perfect) := by
  have e : ∀ b : Idt, onAtom F rj b =
      match b.writeSeqpos with
      | (b, some m) => ((rj, b), .op (.error m))
      | (b, none) => atomRest F rj b := fun _ => rfl
  rw [e, e]
  have h := writeSeqpos_led b
  rcases h with h | ⟨h', h⟩
  · rw [h]
    rcases b.writeSeqpos with ⟨b1, _ | m⟩
    · exact atomRest_follows F rj b1
    · exact .inl ⟨rfl, rfl, rfl⟩
  · revert h h'
    rcases b.writeSeqpos with ⟨b1, _ | m⟩
    · exact nofun
    · intro _ h
      refine .inr ⟨⟨m, rfl⟩, ?_⟩
      revert h
      rcases b.perfect.writeSeqpos with ⟨b2, _ | m⟩
      · exact fun h => List.IsPrefix.trans h (atomRest_adds F rj b2)
      · exact id

theorem until_perfect (F : Nat) : Until (callbacks F) (callbacks F) Rel Lost := by
  constructor
  · rintro p c b _ rfl
    simp only [callbacks]
    cases p with
    | array => exact ⟨rfl, fun s => onStruct_follows [91] s (find F .array c b).1⟩
    | object => exact ⟨rfl, fun s => onStruct_follows [123] s (find F .object c b).1⟩
    | atom => exact ⟨rfl, fun s => onAtom_follows F s (find F .atom c b).1⟩
    | none =>
      simp only [find]
      rcases c.path with _ | ⟨key, r⟩
      · exact ⟨rfl, trivial⟩
      · simp only
        by_cases hk : key ≠ nameTop ∧ key ≠ nameArray
        · rw [if_pos hk, if_pos hk]
          exact ⟨rfl, fun s => onKey_follows s _⟩
        · rw [if_neg hk, if_neg hk]
          exact ⟨rfl, trivial⟩
  · rintro p c b _ rfl
    have hend : ∀ (b : Idt) (bs : Bytes),
        ((onStructEnd bs b).2 = (onStructEnd bs b.perfect).2 ∧ Rel (onStructEnd bs b).1 (onStructEnd bs b.perfect).1) ∨
        ((∃ m, (onStructEnd bs b).2 = some m) ∧ Lost (onStructEnd bs b).1 (onStructEnd bs b.perfect).1) := by
      intro b bs
      rcases write_led { b with seqpos := .inMiddle } bs "IO error writing struct end" with h | h
      · refine .inl ?_
        have : onStructEnd bs b.perfect = ((onStructEnd bs b).1.perfect, (onStructEnd bs b).2) := h
        rw [this]
        exact ⟨rfl, rfl⟩
      · exact .inr h
    simp only [callbacks]
    cases p with
    | array => exact ⟨rfl, hend b [93]⟩
    | object => exact ⟨rfl, hend b [125]⟩
    | atom => exact ⟨rfl, trivial⟩
    | none => exact ⟨rfl, trivial⟩
  · intro b
    exact stays F b.w.out

end Idt

/-- Property C74 for `idtransform`. If it does not return an error, then the bytes that the writer has received are those that a writer
that never fails receives from the same input, and all else is the same too. And whatever it returns, they are the first of them. -/
theorem C74_idtransform (turns F : Nat) (rj : RJ) (w : Writer) (pool : Pool) :
    ((∀ e, (idtransform turns F rj w pool).2 ≠ .err e) →
      idtransform turns F rj w.perfect pool =
        (((idtransform turns F rj w pool).1.1, (idtransform turns F rj w pool).1.2.1.perfect, (idtransform turns F rj w pool).1.2.2),
          (idtransform turns F rj w pool).2)) ∧
    (idtransform turns F rj w pool).1.2.1.out <+: (idtransform turns F rj w.perfect pool).1.2.1.out := by
  unfold idtransform
  rcases scan_led (Idt.until_perfect F) turns F ⟨[], true⟩ rj (.new w) (.new w.perfect) pool rfl with ⟨g, h, hg⟩ | ⟨h', h⟩
  · rw [h]
    rw [show g = _ from hg]
    rcases scan turns F (Idt.callbacks F) ⟨[], true⟩ ⟨rj, .new w, pool⟩ with ⟨st, _ | e | _ | _⟩
    · exact ⟨fun _ => rfl, List.prefix_rfl⟩
    · exact ⟨fun h => absurd rfl (h _), List.prefix_rfl⟩
    · exact ⟨fun _ => rfl, List.prefix_rfl⟩
    · exact ⟨fun _ => rfl, List.prefix_rfl⟩
  · revert h h'
    rcases scan turns F (Idt.callbacks F) ⟨[], true⟩ ⟨rj, .new w, pool⟩ with ⟨st, _ | e | _ | _⟩
    · exact nofun
    · intro _ h
      refine ⟨fun h => absurd rfl (h _), ?_⟩
      revert h
      rcases scan turns F (Idt.callbacks F) ⟨[], true⟩ ⟨rj, .new w.perfect, pool⟩ with ⟨st, _ | e | _ | _⟩ <;> exact id
    · exact nofun
    · exact nofun

/-- The fourth write of the copy of the document fails behind its first byte; with the perfect writer the copy goes on. -/
example : (idtransform 40 100 exSt.rj ⟨[], [none, none, none, some ⟨7, 1⟩, none]⟩ exPool).1.2.1.out = "[{\"k".toUTF8.toList ∧
    (idtransform 40 100 exSt.rj ⟨[], []⟩ exPool).1.2.1.out = "[{\"k\":[1,true]},\"x\"]".toUTF8.toList ∧
    (idtransform 40 100 exSt.rj ⟨[], [none, none]⟩ exPool).2 = .ok () := by decide +kernel

end Verif.Scan
