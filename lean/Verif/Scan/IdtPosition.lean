import Verif.Scan.PositionProps
import Verif.Scan.IdtFail
import Verif.Ddb.Position

/-!
# Where the parser is in the actions of `idtransform`, and the position in the errors they store
-/

namespace Verif.RJiter

open Verif.RJiter.RJ

theorem matchIdent_inside : ∀ (rest d : Bytes) (i : Nat) (e : JsonErr) (j : Nat), Jiter.matchIdent rest d i = some (e, j) → j ≤ i + d.length := by
  intro rest
  induction rest with
  | nil => intro d i e j h; simp [Jiter.matchIdent] at h
  | cons r rs ih =>
    intro d i e j h
    cases d with
    | nil => simp [Jiter.matchIdent] at h; simp; omega
    | cons c cs =>
      simp only [Jiter.matchIdent] at h
      split at h
      · have := ih cs (i + 1) e j h; simp; omega
      · simp at h; simp; omega

theorem consumeIdent_inside {α : Type} (rest : Bytes) (v : α) : Inside (Jiter.consumeIdent rest v) := by
  intro d n e h
  unfold Jiter.consumeIdent at h
  rcases hm : Jiter.matchIdent rest (d.drop 1) 1 with _ | ⟨x, i⟩
  · rw [hm] at h; simp at h
  · rw [hm] at h
    simp only [jerr, Prod.mk.injEq, Except.error.injEq] at h
    have := matchIdent_inside _ _ _ _ _ hm
    obtain ⟨rfl, rfl⟩ := h
    simp at this ⊢
    omega

theorem knownBool_inside (c : Byte) : Inside (Jiter.knownBool c) := by
  intro d n e h
  unfold Jiter.knownBool at h
  split at h
  · exact consumeIdent_inside _ _ d n e h
  · split at h
    · exact consumeIdent_inside _ _ d n e h
    · simp only [Prod.mk.injEq, Except.error.injEq] at h
      obtain ⟨rfl, rfl⟩ := h
      simp

/-- The index of an error of `write_long_bytes`: at most a buffer behind the position. -/
theorem writeLong_off : ∀ (fuel : Nat) (s : RJ) (w : Writer), s.Sync → s.b.reader.Clean → ∀ s' w' er, s.handleLong .raw fuel w = ((s', w'), .err er) →
    s'.currentIndex ≤ er.index ∧ er.index ≤ s'.currentIndex + s.b.buf.length + 1 := by
  intro fuel
  induction fuel with
  | zero => intro s w _ _ s' w' er h; simp [handleLong] at h
  | succ fuel ih =>
    intro s w hsy hcl s' w' er h
    simp only [handleLong, call] at h
    have hself : Loose s s := .ofMoved (.refl hsy)
    have hjl : s.jdata.length = s.b.nBytes - s.jidx := by
      have := hsy.ok
      simp [jdata, hsy.len]; omega
    have hok := hsy.ok
    have hidx := hsy.idx
    rcases hfv : Kind.raw.parser s.jdata with ⟨n, r⟩
    rw [hfv] at h
    cases r with
    | ok v =>
      simp only at h
      rcases hwr : w.writeAll v with ⟨w1, _ | kd⟩
      · rw [hwr] at h; simp at h
      · rw [hwr] at h
        simp only [Prod.mk.injEq, Res.err.injEq] at h
        obtain ⟨⟨rfl, _⟩, rfl⟩ := h
        exact ⟨Nat.le_refl _, by simp only; omega⟩
    | error e =>
      have hn := Kind.raw.parser_within hfv
      have he := (knownBytes_inside _ _ _ hfv).2
      subst hn
      simp only [Nat.add_zero] at h
      by_cases hcr : (!canRetry e.type) = true
      · rw [if_pos hcr] at h
        simp only [Prod.mk.injEq, Res.err.injEq] at h
        obtain ⟨⟨rfl, _⟩, rfl⟩ := h
        simp only [mkErr, Err.fromJiter]
        omega
      · rw [if_neg hcr] at h
        generalize hs2 : (if s.jidx > 0 then ({ s with b := s.b.shift 0 s.jidx } : RJ).refresh else s) = s2 at h
        have h2 : s2.Sync ∧ s2.jidx = 0 ∧ Loose s s2 := by
          by_cases hj : s.jidx > 0
          · rw [if_pos hj] at hs2
            have hf : Frame s.b (s.b.shift 0 s.jidx) s.jidx 0 := .shift0 hsy.ok hsy.idx
            rw [← hs2]
            exact ⟨⟨hf.ok, rfl, Nat.zero_le _⟩, rfl, .ofFrame (s' := ({ s with b := s.b.shift 0 s.jidx } : RJ).refresh) hf⟩
          · rw [if_neg hj] at hs2
            rw [← hs2]
            exact ⟨hsy, by omega, hself⟩
        obtain ⟨hsy2, hj2, hl2⟩ := h2
        by_cases hsg : s2.b.buf.length ≤ segmentEnd s2.b
        · rw [if_pos hsg] at h; simp at h
        · rw [if_neg hsg] at h
          generalize backToLeading s2.b.buf (segmentEnd s2.b) = seg at h
          rcases hwr : (if seg > 1 then writeSegment .raw s2.b.buf seg s2.currentIndex w else (w, .ok ())) with ⟨w1, _ | er1 | _ | _⟩
          · rw [hwr] at h
            simp only at h
            have h3 : Loose s2 { s2 with b := if seg > 1 then s2.b.shift 1 seg else s2.b } := by
              by_cases hg : seg > 1
              · rw [if_pos hg]; exact .shift1 hsy2.ok hj2 hg
              · rw [if_neg hg]; exact .ofMoved (.refl hsy2)
            generalize (if seg > 1 then s2.b.shift 1 seg else s2.b) = b3 at h h3
            have hfr : Frame b3 b3.readMore.1 0 0 := .readMore h3.ok (Nat.zero_le _)
            have h4 : Loose s { s2 with b := b3.readMore.1 } := by
              refine (hl2.trans h3).trans (.ofFrame ?_)
              simp only [hj2]; exact hfr
            have hcl3 : b3.reader.Clean := (hl2.trans h3).clean hcl
            rcases hrm : b3.readMore with ⟨b4, m | er1 | _ | _⟩
            · rw [hrm] at h h4
              simp only at h
              by_cases hm : m = 0
              · rw [if_pos hm] at h
                simp only [Prod.mk.injEq, Res.err.injEq] at h
                obtain ⟨⟨rfl, _⟩, rfl⟩ := h
                simp only [Err.fromJiter]
                omega
              · rw [if_neg hm] at h
                have hx := ih ({ s2 with b := b4 } : RJ).refresh w1 ⟨h4.ok, rfl, Nat.zero_le _⟩ (h4.clean hcl) _ _ _ h
                have hbuf : (({ s2 with b := b4 } : RJ).refresh).b.buf.length = s.b.buf.length := h4.buf
                omega
            · exfalso
              rcases b3.readMore_cases h3.ok with ⟨_, e⟩ | ⟨_, e⟩ | ⟨q, r', hlt, hr, e⟩ | ⟨b', bs, e, h1⟩
              · rw [e] at hrm; simp at hrm
              · rw [e] at hrm; simp at hrm
              · rw [hr] at hcl3; exact hcl3.elim
              · rw [e] at hrm; simp at hrm
            · rw [hrm] at h; simp at h
            · rw [hrm] at h; simp at h
          · rw [hwr] at h
            simp only [Prod.mk.injEq, Res.err.injEq] at h
            obtain ⟨⟨rfl, _⟩, rfl⟩ := h
            by_cases hg : seg > 1
            · rw [if_pos hg] at hwr
              simp only [writeSegment] at hwr
              rcases hw2 : w.writeAll ((s2.b.buf.take seg).drop 1) with ⟨w2, _ | kd⟩
              · rw [hw2] at hwr; simp at hwr
              · rw [hw2] at hwr
                simp only [Prod.mk.injEq, Res.err.injEq] at hwr
                rw [← hwr.2]
                exact ⟨Nat.le_refl _, by simp only; omega⟩
            · rw [if_neg hg] at hwr; simp at hwr
          · rw [hwr] at h; simp at h
          · rw [hwr] at h; simp at h

end Verif.RJiter

namespace Verif.Scan

open Verif.RJiter (RJ Err Res Reader Writer Off)
open Verif.Ddb (peek_near knownBool_near knownNull_near number_near string_near)

variable {F : Nat}

/-- Nothing is stored. -/
def Idt.Fresh (b : Idt) : Prop := b.ioError = none ∧ b.rjError = none ∧ b.scanError = none

/-- What is stored, if an action of `idtransform` that began at `s` fails at `s'`. -/
def Idt.Stored (s s' : RJ) (b : Idt) : Prop :=
  b.ioError ≠ none ∨ b.ioError = none ∧ ((∃ er, b.rjError = some er ∧ AtPlace s s' (.rjiter er)) ∨
    b.rjError = none ∧ ∃ e, b.scanError = some e ∧ AtPlace s s' e)

/-- The result of an action: where it is, and what it stores. -/
def Idt.Minds (s : RJ) (x : (RJ × Idt) × Acted) : Prop :=
  KeepsTo Idt.Fresh s x ∧ ∀ s' b m, x = ((s', b), .op (.error m)) → Idt.Stored s s' b

namespace Idt

theorem fresh_write {b : Idt} (h : b.Fresh) (bs : Bytes) (msg : String) :
    match b.write bs msg with
    | (b', none) => b'.Fresh
    | (b', some _) => b'.ioError ≠ none := by
  unfold write
  rcases b.w.writeAll bs with ⟨w, _ | k⟩
  · exact h
  · simp

theorem fresh_writeKey {b : Idt} (h : b.Fresh) (pre key : Bytes) (msg : String) :
    match b.writeKey pre key msg with
    | (b', none) => b'.Fresh
    | (b', some _) => b'.ioError ≠ none := by
  unfold writeKey
  have h1 := fresh_write h pre msg
  rcases hx : b.write pre msg with ⟨b1, _ | m⟩ <;> rw [hx] at h1
  · have h2 := fresh_write h1 key "IO error writing key"
    simp only
    rcases hx : b1.write key "IO error writing key" with ⟨b2, _ | m⟩ <;> rw [hx] at h2
    · have h3 := fresh_write h2 [34, 58] "IO error writing key suffix"
      simp only
      rcases hx : b2.write [34, 58] "IO error writing key suffix" with ⟨b3, _ | m⟩ <;> rw [hx] at h3
      · exact h3
      · exact h3
    · exact h2
  · exact h1

theorem fresh_writeSeqpos {b : Idt} (h : b.Fresh) :
    match b.writeSeqpos with
    | (b', none) => b'.Fresh
    | (b', some _) => b'.ioError ≠ none := by
  unfold writeSeqpos
  rcases hq : b.seqpos with _ | _ | key | key | _
  · exact h
  · have h1 := fresh_write h (if b.isTop then [32] else [44]) "IO error writing sequence position"
    simp only
    rcases hx : b.write (if b.isTop then [32] else [44]) "IO error writing sequence position" with ⟨b1, _ | m⟩ <;> rw [hx] at h1
    · exact h1
    · exact h1
  · exact fresh_writeKey h _ _ _
  · exact fresh_writeKey h _ _ _
  · exact h

theorem minds_here {s s' : RJ} (h : s.Near s') (hs : s'.Sync) {b : Idt} (hb : b.Fresh) {o : StreamOp} (ho : ∀ m, o ≠ .error m) :
    Minds s ((s', b), .op o) := by
  refine ⟨?_, ?_⟩
  · rcases o with _ | _ | m
    · exact ⟨⟨h, hs⟩, hb⟩
    · exact ⟨⟨h, hs⟩, hb⟩
    · exact absurd rfl (ho m)
  · intro _ _ m hx
    simp only [Prod.mk.injEq, Acted.op.injEq] at hx
    exact absurd hx.2 (ho m)

theorem minds_error {s s' : RJ} (h : s.Near s') {b : Idt} (hb : Stored s s' b) (m : String) : Minds s ((s', b), .op (.error m)) := by
  refine ⟨h.index, ?_⟩
  intro _ _ m hx
  simp only [Prod.mk.injEq] at hx
  obtain ⟨⟨rfl, rfl⟩, _⟩ := hx
  exact hb

theorem minds_panic {s : RJ} (x : RJ × Idt) : Minds s (x, .panic) := ⟨trivial, by rintro _ _ _ hx; simp at hx⟩
theorem minds_diverge {s : RJ} (x : RJ × Idt) : Minds s (x, .diverge) := ⟨trivial, by rintro _ _ _ hx; simp at hx⟩

theorem stored_error {s s' : RJ} {b : Idt} (hb : b.Fresh) {e : SErr} (he : (∀ k, e ≠ .io k) → AtPlace s s' e) : Stored s s' (b.storeError e) := by
  obtain ⟨h1, h2, h3⟩ := hb
  unfold Stored storeError
  cases e
  case io k => left; simp
  case rjiter er =>
    simp only
    split
    · left; simp
    · right; exact ⟨h1, .inl ⟨er, rfl, he (by simp)⟩⟩
  all_goals right; exact ⟨h1, .inr ⟨h2, _, rfl, he (by simp)⟩⟩

theorem minds_seqpos {s : RJ} (hu : Usable F s) {b : Idt} (h : b.Fresh) {k : Idt → (RJ × Idt) × Acted} (hk : ∀ b1, b1.Fresh → Minds s (k b1)) :
    Minds s (match b.writeSeqpos with
      | (b1, some m) => ((s, b1), .op (.error m))
      | (b1, none) => k b1) := by
  have h1 := fresh_writeSeqpos h
  rcases hx : b.writeSeqpos with ⟨b1, _ | m⟩ <;> rw [hx] at h1
  · exact hk b1 h1
  · exact minds_error (.ofMoved (.refl hu.sync)) (.inl h1) m

/-- What `copy_atom` does: it goes on, or its error has the right place. -/
def Copies (s : RJ) (x : (RJ × Writer) × SRes Unit) : Prop :=
  match x with
  | ((s', _), .ok ()) => s.Near s' ∧ s'.Sync
  | ((s', _), .err e) => s.Near s' ∧ ((∀ k, e ≠ .io k) → AtPlace s s' e)
  | (_, .panic) => True
  | (_, .diverge) => True

theorem copies_io {s s' : RJ} (h : s.Near s') (hs : s'.Sync) (x : Writer × Option Nat) : Copies s (ioResult s' x) := by
  rcases x with ⟨w, _ | k⟩
  · exact ⟨h, hs⟩
  · exact ⟨h, fun hx => absurd rfl (hx k)⟩

theorem copies_word {α : Type} {s s' : RJ} {r : Res α} (word : Bytes) (w : Writer) (h : r = .panic ∨ r = .diverge ∨ s.Near s' ∧ s'.Sync)
    (he : ∀ er, r = .err er → Off s s' er) : Copies s (copyWord word w (s', r)) := by
  rcases h with rfl | rfl | ⟨h1, h2⟩
  · trivial
  · trivial
  · rcases r with v | e | _ | _
    · exact copies_io h1 h2 _
    · exact ⟨h1, fun _ => .off (he e rfl)⟩
    · trivial
    · trivial

theorem copies {s : RJ} (hu : Usable F s) (hcl : s.b.reader.Clean) (c : Byte) (w : Writer) : Copies s (copyAtom F c s w) := by
  have hn : s.Near s := .ofMoved (.refl hu.sync)
  have hl : 2 ≤ s.b.buf.length := by have := hu.len; omega
  have hbool : ∀ word, Copies s (copyWord word w (s.knownBool F c)) := by
    intro word
    rcases hx : s.knownBool F c with ⟨s', r⟩
    refine copies_word word w (knownBool_near hu hcl hx) ?_
    rintro er rfl
    exact RJiter.loopUntilSuccess_off (RJiter.PrefixFn.jsound (RJiter.Jiter.knownBool_prefix c)) (RJiter.knownBool_inside c) hu.sync hl hu.fuel hcl hx
  unfold copyAtom
  split
  · rcases w.writeAll [34] with ⟨w1, _ | k⟩
    · simp only
      rcases hx : s.writeLongBytes F w1 with ⟨⟨s2, w2⟩, r⟩
      rcases string_near hu hx with rfl | rfl | ⟨⟨e, rfl⟩, h2⟩ | ⟨rfl, h2, h3⟩
      · trivial
      · trivial
      · refine ⟨h2, fun _ => ?_⟩
        have h4 := RJiter.writeLong_off F s w1 hu.sync hcl _ _ _ hx
        have h5 := h2.index
        refine ⟨by omega, ?_⟩
        omega
      · exact copies_io h2 h3 _
    · exact ⟨hn, fun hx => absurd rfl (hx k)⟩
  split
  · rcases hx : s.knownNull F with ⟨s', r⟩
    refine copies_word _ w (knownNull_near hu hcl hx) ?_
    rintro er rfl
    exact RJiter.loopUntilSuccess_off (RJiter.PrefixFn.jsound RJiter.Jiter.knownNull_prefix) (RJiter.consumeIdent_inside _ _) hu.sync hl hu.fuel hcl hx
  split
  · exact hbool _
  split
  · exact hbool _
  · rcases hx : s.nextNumberBytes F with ⟨s2, r⟩
    rcases number_near hu hcl hx with rfl | rfl | ⟨h2, h3⟩
    · trivial
    · trivial
    · rcases r with v | e | _ | _
      · exact copies_io h2 h3 _
      · exact ⟨h2, fun _ => AtPlace.near h2 (by simp) (by simp) rfl⟩
      · trivial
      · trivial

theorem minds_onAtom {s : RJ} (hu : Usable F s) (hcl : s.b.reader.Clean) {b : Idt} (h : b.Fresh) : Minds s (onAtom F s b) := by
  unfold onAtom
  refine minds_seqpos hu h fun b1 hb => ?_
  have hl : 2 ≤ s.b.buf.length := by have := hu.len; omega
  rcases hp : s.peek F with ⟨s1, r⟩
  rcases peek_near hu hcl hp with rfl | rfl | ⟨hn, hs⟩
  · exact minds_panic _
  · exact minds_diverge _
  rcases r with c | e | _ | _
  · simp only
    have h1 : Along F s s1 := (Along.mk hu hcl (.ofMoved (.refl hu.sync)) : Along F s s).go hn hs
    have hc := copies h1.use h1.clean c b1.w
    rcases hx : copyAtom F c s1 b1.w with ⟨⟨s2, w⟩, u | e | _ | _⟩ <;> rw [hx] at hc
    · exact minds_here (o := .valueIsConsumed) (b := { b1 with w := w }) (hn.trans hc.1) hc.2 hb (by simp)
    · exact minds_error (hn.trans hc.1) (stored_error (b := { b1 with w := w }) hb fun hx => AtPlace.trans hn (hc.2 hx)) _
    · exact minds_panic _
    · exact minds_diverge _
  · exact minds_error hn (stored_error hb fun _ => .off (RJiter.loopUntilSuccess_off RJiter.peek_jsound RJiter.peek_inside hu.sync hl hu.fuel hcl hp)) _
  · exact minds_panic _
  · exact minds_diverge _

theorem minds_onStruct {s : RJ} (hu : Usable F s) {b : Idt} (h : b.Fresh) (bytes : Bytes) : Minds s (onStruct bytes s b) := by
  unfold onStruct
  refine minds_seqpos hu h fun b1 hb => ?_
  have h1 := fresh_write hb bytes "IO error writing struct"
  rcases hx : b1.write bytes "IO error writing struct" with ⟨b2, _ | m⟩ <;> rw [hx] at h1
  · exact minds_here (o := .none) (b := { b2 with seqpos := .atBeginning }) (.ofMoved (.refl hu.sync)) hu.sync h1 (by simp)
  · exact minds_error (.ofMoved (.refl hu.sync)) (.inl h1) m

theorem minds_onKey {s : RJ} (hu : Usable F s) {b : Idt} (h : b.Fresh) : Minds s (onKey s b) := by
  unfold onKey
  exact minds_seqpos hu h fun b1 hb => minds_here (o := .none) (b := { b1 with seqpos := .afterKey }) (.ofMoved (.refl hu.sync)) hu.sync hb (by simp)

theorem minds_find {s : RJ} (hu : Usable F s) (hcl : s.b.reader.Clean) {b b' : Idt} (h : b.Fresh) {p : Pseudo} {c : Ctx} {x : Option (Action Idt)}
    (hf : find F p c b = (b', x)) : b'.Fresh ∧ ∀ a, x = some a → Minds s (a s b') := by
  have hkey : ∀ q, ({ b with seqpos := q } : Idt).Fresh := fun _ => h
  have htop : ∀ q, ({ b with isTop := q } : Idt).Fresh := fun _ => h
  unfold find at hf
  split at hf
  · obtain ⟨rfl, rfl⟩ := Prod.mk.inj hf
    exact ⟨htop _, by rintro a ⟨⟩; exact minds_onAtom hu hcl (htop _)⟩
  · obtain ⟨rfl, rfl⟩ := Prod.mk.inj hf
    exact ⟨htop _, by rintro a ⟨⟩; exact minds_onStruct hu (htop _) _⟩
  · obtain ⟨rfl, rfl⟩ := Prod.mk.inj hf
    exact ⟨htop _, by rintro a ⟨⟩; exact minds_onStruct hu (htop _) _⟩
  · split at hf
    · split at hf
      · obtain ⟨rfl, rfl⟩ := Prod.mk.inj hf
        exact ⟨hkey _, by rintro a ⟨⟩; exact minds_onKey hu (hkey _)⟩
      · obtain ⟨rfl, rfl⟩ := Prod.mk.inj hf
        exact ⟨h, by rintro a ⟨⟩⟩
    · obtain ⟨rfl, rfl⟩ := Prod.mk.inj hf
      exact ⟨h, by rintro a ⟨⟩⟩

theorem minds_findEnd {b b' : Idt} (h : b.Fresh) {p : Pseudo} {c : Ctx} {x : Option (EndAction Idt)} (hf : findEnd p c b = (b', x)) :
    b'.Fresh ∧ ∀ a, x = some a → ((a b').2 = none → (a b').1.Fresh) ∧ ((a b').2 ≠ none → (a b').1.ioError ≠ none) := by
  have hend : ∀ bytes, ((onStructEnd bytes b).2 = none → (onStructEnd bytes b).1.Fresh) ∧
      ((onStructEnd bytes b).2 ≠ none → (onStructEnd bytes b).1.ioError ≠ none) := by
    intro bytes
    have h1 := fresh_write (b := { b with seqpos := .inMiddle }) h bytes "IO error writing struct end"
    revert h1
    unfold onStructEnd
    rcases ({ b with seqpos := .inMiddle } : Idt).write bytes "IO error writing struct end" with ⟨b2, _ | m⟩
    · exact fun h1 => ⟨fun _ => h1, fun h2 => absurd rfl h2⟩
    · exact fun h1 => ⟨fun h2 => by simp at h2, fun _ => h1⟩
  unfold findEnd at hf
  split at hf
  all_goals obtain ⟨rfl, rfl⟩ := Prod.mk.inj hf
  · exact ⟨h, by rintro a ⟨⟩; exact hend _⟩
  · exact ⟨h, by rintro a ⟨⟩; exact hend _⟩
  · exact ⟨h, by rintro a ⟨⟩⟩
  · exact ⟨h, by rintro a ⟨⟩⟩

theorem steady (F : Nat) : Steady (callbacks F) F Fresh := by
  refine ⟨?_, ?_⟩
  · intro p c b s hb hu hcl
    rcases hf : (callbacks F).find p c b with ⟨b', _ | a⟩
    · exact (minds_find hu hcl hb hf).1
    · exact ((minds_find hu hcl hb hf).2 a rfl).1
  · intro p c b hb
    rcases hf : (callbacks F).findEnd p c b with ⟨b', _ | a⟩
    · exact (minds_findEnd (c := c) hb hf).1
    · exact ((minds_findEnd (c := c) hb hf).2 a rfl).1

/-- What is stored at the end. -/
theorem stored_blamed {s0 : RJ} {st : St Idt} (h : Blamed (callbacks F) F Fresh s0 st) : Stored s0 st.rj st.baton := by
  rcases h with ⟨s, b, p, c, b', a, m, h1, h2, h3, h4⟩ | ⟨b, p, c, b', a, m, _, h2, h3, h4⟩
  · have hm := ((minds_find h1.use h1.clean h2 h3).2 a rfl).2 _ _ _ h4
    rcases hm with h5 | ⟨h5, ⟨er, h6, h7⟩ | ⟨h6, e, h7, h8⟩⟩
    · exact .inl h5
    · exact .inr ⟨h5, .inl ⟨er, h6, .trans h1.near h7⟩⟩
    · exact .inr ⟨h5, .inr ⟨h6, e, h7, .trans h1.near h8⟩⟩
  · have hm := ((minds_findEnd (c := c) h2 h3).2 a rfl).2
    rw [h4] at hm
    exact .inl (hm (by simp))

theorem error_placed {s0 : RJ} {st : St Idt} {e : SErr} (h : EndedAt (callbacks F) F Fresh s0 st e) :
    (∃ k, st.baton.error e = .io k) ∨ AtPlace s0 st.rj (st.baton.error e) := by
  obtain ⟨h1, ⟨h2, h3, h4⟩ | ⟨m, p, rfl, h2⟩⟩ := h
  · unfold error
    rw [h2, h3, h4]
    exact .inr h1
  · unfold error
    rcases stored_blamed h2 with h5 | ⟨h5, ⟨er, h6, h7⟩ | ⟨h6, e, h7, h8⟩⟩
    · rcases hk : st.baton.ioError with _ | k
      · exact absurd hk h5
      · exact .inl ⟨k, rfl⟩
    · rw [h5, h6]; exact .inr h7
    · rw [h5, h6, h7]; exact .inr h8

end Idt

/-- **C95** (partial), `idtransform`: an error is one of writing, which has no position, or its position is as for `scan`: at most the length of the
input, and in an error of the parser less than the length of the buffer and 5 behind it. The full statement is that the position is at most
the length of the input; it is false (`C95_idtransform_beyond`). The reader does not fail; it may deliver the input in any chunks, writing may fail,
and the input is arbitrary. -/
theorem C95_idtransform_partial (turns F : Nat) (reader : Reader) (buf : Bytes) (w : Writer) (pool : U8Pool.Pool) (h8 : 8 ≤ buf.length)
    (hf : 2 * reader.size + 2 ≤ F) (hcl : reader.Clean) {s' : RJ} {w' : Writer} {pool' : U8Pool.Pool} {e : SErr}
    (hr : idtransform turns F (.new reader buf) w pool = ((s', w', pool'), .err e)) :
    (∃ k, e = .io k) ∨ Placed 0 reader.pending.length (buf.length + 4) s'.currentIndex e := by
  unfold idtransform at hr
  rcases hx : scan turns F (Idt.callbacks F) ⟨[], true⟩ ⟨.new reader buf, .new w, pool⟩ with ⟨st, u | e' | _ | _⟩
  all_goals rw [hx] at hr
  · simp at hr
  · simp only [Prod.mk.injEq, SRes.err.injEq] at hr
    obtain ⟨⟨rfl, rfl, rfl⟩, rfl⟩ := hr
    have h := Idt.error_placed (scan_at (Idt.steady F) (usable_new reader buf _ h8 hf) hcl (show (Idt.new w).Fresh from ⟨rfl, rfl, rfl⟩) hx)
    simpa only [AtPlace, Verif.RJiter.rest_new, show (RJ.new reader buf).currentIndex = 0 from rfl, show (RJ.new reader buf).b.buf = buf from rfl, Nat.zero_add] using h
  · simp at hr
  · simp at hr

/-- `[tru, 1]` in two chunks: the error has the place where the word goes wrong, and the parser is in front of the word. -/
def exTruIn : Reader := [.data 91 [116, 114, 117], .data 44 [32, 49, 93]]

example : 8 ≤ (List.replicate 8 0 : Bytes).length ∧ 2 * exTruIn.size + 2 ≤ 100 ∧ exTruIn.Clean ∧
    (idtransform 40 100 (.new exTruIn (List.replicate 8 0)) ⟨[], []⟩ exPool).2 = .err (.rjiter ⟨.json .expectedSomeIdent, 4⟩) ∧
    (idtransform 40 100 (.new exTruIn (List.replicate 8 0)) ⟨[], []⟩ exPool).1.1.currentIndex = 1 :=
  ⟨by decide, by decide, by decide, by decide +kernel, by decide +kernel⟩

/-- **C95, the full statement is false**: the input `{"a":1,"b" 2}` has 13 bytes, the error is at 16. -/
theorem C95_idtransform_beyond :
    (idtransform 20 20 (.new [.data 123 [34, 97, 34, 58, 49, 44, 34, 98, 34, 32, 50, 125]] (List.replicate 16 0)) ⟨[], []⟩ exPool).2 =
      .err (.rjiter ⟨.json .expectedColon, 16⟩) := by decide +kernel

end Verif.Scan
