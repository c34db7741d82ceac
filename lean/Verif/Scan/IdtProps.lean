import Verif.Scan.IdtFail
import Verif.Scan.Props

/-!
# Property C38: what `idtransform` writes
-/

namespace Verif.Scan

open Verif.U8Pool (Pool)
open Verif.RJiter

/-! ## Specification -/

mutual
/-- The same document without space between its tokens. -/
def Val.strip : Val → Val
  | .atom tok => .atom tok
  | .arr _ items => .arr [] items.strip
  | .obj _ members => .obj [] members.strip
@[inherit_doc Val.strip]
def Items.strip : Items → Items
  | .nil => .nil
  | .cons _ v _ more => .cons [] v.strip [] more.strip
@[inherit_doc Val.strip]
def Members.strip : Members → Members
  | .nil => .nil
  | .cons _ k _ _ v _ more => .cons [] k [] [] v.strip [] more.strip
end

mutual
/-- The keys of a document all have the property `P`. -/
def Val.Keys (P : Bytes → Prop) : Val → Prop
  | .atom _ => True
  | .arr _ items => items.Keys P
  | .obj _ members => members.Keys P
@[inherit_doc Val.Keys]
def Items.Keys (P : Bytes → Prop) : Items → Prop
  | .nil => True
  | .cons _ v _ more => v.Keys P ∧ more.Keys P
@[inherit_doc Val.Keys]
def Members.Keys (P : Bytes → Prop) : Members → Prop
  | .nil => True
  | .cons _ k _ _ v _ more => P k ∧ v.Keys P ∧ more.Keys P
end

/-- A key other than `#top` and `#array`. -/
def Usual (k : Bytes) : Prop := k ≠ "#top".toUTF8.toList ∧ k ≠ "#array".toUTF8.toList

theorem usual_iff (k : Bytes) : Usual k ↔ k ≠ nameTop ∧ k ≠ nameArray := by
  unfold Usual
  rw [show "#top".toUTF8.toList = nameTop by decide +kernel, show "#array".toUTF8.toList = nameArray by decide +kernel]

/-! ## The actions with a writer that does not fail -/

/-- What `write_seqpos` writes. -/
def Idt.lead (b : Idt) : Bytes :=
  match b.seqpos with
  | .atBeginning => []
  | .inMiddle => if b.isTop then [32] else [44]
  | .atBeginningKey key => 34 :: (key ++ [34, 58])
  | .inMiddleKey key => 44 :: 34 :: (key ++ [34, 58])
  | .afterKey => []

def Idt.put (b : Idt) (bs : Bytes) : Idt := { b with w := ⟨b.w.out ++ bs, []⟩ }

/-- The state behind `write_seqpos`. -/
def Idt.led (b : Idt) : Idt := { b.put b.lead with seqpos := if b.seqpos = .afterKey then .afterKey else .inMiddle }

theorem Idt.write_clean {b : Idt} (h : b.w.plan = []) (bs : Bytes) (msg : String) : b.write bs msg = (b.put bs, none) := by
  rcases b with ⟨⟨out, plan⟩, sp, top, e1, e2, e3⟩
  simp only at h
  subst h
  rfl

theorem Idt.put_put (b : Idt) (x y : Bytes) : (b.put x).put y = b.put (x ++ y) := by
  simp [Idt.put]

theorem Idt.writeSeqpos_clean {b : Idt} (h : b.w.plan = []) : b.writeSeqpos = (b.led, none) := by
  have hp : ∀ bs, (b.put bs).w.plan = [] := fun _ => rfl
  rcases hs : b.seqpos with _ | _ | key | key | _
  · simp only [writeSeqpos, led, lead, hs, put, List.append_nil, reduceCtorEq, if_false]
    rcases b with ⟨⟨out, plan⟩, sp, top, e1, e2, e3⟩
    simp only at h
    subst h
    rfl
  · simp only [writeSeqpos, led, lead, hs, write_clean h, reduceCtorEq, if_false]
  · simp only [writeSeqpos, writeKey, led, lead, hs, write_clean h, write_clean (hp _), put_put, reduceCtorEq, if_false]
    simp [put]
  · simp only [writeSeqpos, writeKey, led, lead, hs, write_clean h, write_clean (hp _), put_put, reduceCtorEq, if_false]
    simp [put]
  · simp only [writeSeqpos, led, lead, hs, put, List.append_nil, if_true]
    rcases b with ⟨⟨out, plan⟩, sp, top, e1, e2, e3⟩
    simp only at h hs
    subst h
    subst hs
    rfl

/-- The callbacks, but failing if the writer may fail. -/
def guardA (a : Action Idt) : Action Idt := fun s b => if b.w.plan = [] then a s b else ((s, b), .op (.error ""))
def guardE (a : EndAction Idt) : EndAction Idt := fun b => if b.w.plan = [] then a b else (b, some "")
def guarded (F : Nat) : Callbacks Idt where
  find p c b := ((Idt.find F p c b).1, (Idt.find F p c b).2.map guardA)
  findEnd p c b := ((Idt.findEnd p c b).1, (Idt.findEnd p c b).2.map guardE)

theorem Wrote.clean {w w' : Writer} (h : Wrote w w') (hw : w.plan = []) : w'.plan = [] := by
  obtain ⟨p, h1, _⟩ := h
  rw [hw] at h1
  exact (List.append_eq_nil_iff.mp h1.symm).2

theorem guarded_sim (F : Nat) : Sim (Idt.callbacks F) (guarded F) (fun b g => b = g ∧ b.w.plan = []) (fun _ _ _ _ => True) := by
  have hk := fun w => callbacks_keep F w
  constructor
  · rintro p c b _ ⟨rfl, h⟩
    obtain ⟨h1, h2⟩ := (hk b.w).find p c b (Wrote.refl _)
    revert h1 h2
    simp only [Idt.callbacks, guarded]
    rcases Idt.find F p c b with ⟨b1, _ | a⟩
    · exact fun h1 _ => ⟨⟨trivial, h1.clean h⟩, trivial⟩
    · intro h1 h2
      refine ⟨⟨trivial, h1.clean h⟩, fun s => ?_⟩
      have h2 := h2 a rfl s
      have hc : b1.w.plan = [] := h1.clean h
      simp only at h2 ⊢
      unfold guardA
      rw [if_pos hc]
      refine ⟨rfl, rfl, ?_⟩
      revert h2
      rcases a s b1 with ⟨⟨s', b'⟩, (_ | _ | m) | _ | _⟩
      · exact fun h2 => ⟨rfl, h2.clean h⟩
      · exact fun h2 => ⟨rfl, h2.clean h⟩
      · exact fun _ => trivial
      · exact fun h2 => ⟨rfl, h2.clean h⟩
      · exact fun h2 => ⟨rfl, h2.clean h⟩
  · rintro p c b _ ⟨rfl, h⟩
    obtain ⟨h1, h2⟩ := (hk b.w).findEnd p c b (Wrote.refl _)
    revert h1 h2
    simp only [Idt.callbacks, guarded]
    rcases Idt.findEnd p c b with ⟨b1, _ | a⟩
    · exact fun h1 _ => ⟨⟨trivial, h1.clean h⟩, trivial⟩
    · intro h1 h2
      have h2 := h2 a rfl
      have hc : b1.w.plan = [] := h1.clean h
      refine ⟨⟨trivial, hc⟩, ?_⟩
      simp only [Option.map_some] at h2 ⊢
      unfold guardE
      rw [if_pos hc]
      refine ⟨rfl, ?_⟩
      revert h2
      rcases a b1 with ⟨b', _ | m⟩
      · exact fun h2 => ⟨rfl, h2.clean h⟩
      · exact fun _ _ => trivial

/-- What the guarded callbacks do. -/
def idtH : Handler Idt where
  start p path v b :=
    match p with
    | .none =>
      match path with
      | key :: _ =>
        if key ≠ nameTop ∧ key ≠ nameArray then
          let b1 := { b with seqpos := if b.seqpos = .atBeginning then .atBeginningKey key else .inMiddleKey key }
          if b.w.plan = [] then ({ b1.led with seqpos := .afterKey }, .none) else (b1, .error "")
        else (b, .none)
      | [] => (b, .none)
    | .atom =>
      let b1 := { b with isTop := path.length < 2 }
      if b.w.plan = [] then (b1.led.put v.text, .valueIsConsumed) else (b1, .error "")
    | .array =>
      let b1 := { b with isTop := path.length < 2 }
      if b.w.plan = [] then ({ b1.led.put [91] with seqpos := .atBeginning }, .none) else (b1, .error "")
    | .object =>
      let b1 := { b with isTop := path.length < 2 }
      if b.w.plan = [] then ({ b1.led.put [123] with seqpos := .atBeginning }, .none) else (b1, .error "")
  finish p _ b :=
    match p with
    | .array => if b.w.plan = [] then (({ b with seqpos := .inMiddle } : Idt).put [93], none) else (b, some "")
    | .object => if b.w.plan = [] then (({ b with seqpos := .inMiddle } : Idt).put [125], none) else (b, some "")
    | _ => (b, none)

theorem Writer.clean_eq {w : Writer} (h : w.plan = []) {out : Bytes} (ho : w.out = out) : w = ⟨out, []⟩ := by
  rcases w with ⟨o, p⟩
  simp only at h ho
  rw [h, ho]

theorem writeAll_clean {w : Writer} (h : w.plan = []) (bs : Bytes) : w.writeAll bs = (⟨w.out ++ bs, []⟩, none) := by
  rcases w with ⟨o, p⟩
  simp only at h
  subst h
  rfl

variable {M : Mode} {L F : Nat}

theorem copyAtom_spec {s : RJ} (h : Inv M L F s) {tok t : Bytes} {c : Byte} {r : Bytes} (ha : IsAtom (fun n => n.length + 1 ≤ L) M.str tok)
    (hc : tok = c :: r) (he : Ends (.atom tok) t) (hr : s.rest = tok ++ t) (w : Writer) (hw : w.plan = []) :
    ∃ s', copyAtom F c s w = ((s', ⟨w.out ++ tok, []⟩), .ok ()) ∧ Inv M L F s' ∧ s.Moved s' tok.length ∧ 0 < s'.jidx := by
  unfold copyAtom
  cases ha with
  | null =>
    simp only [List.cons.injEq] at hc
    obtain ⟨rfl, rfl⟩ := hc
    obtain ⟨s', e, hi, hm, hj⟩ := h.null hr
    exact ⟨s', by simp [e, copyWord, ioResult, writeAll_clean hw], hi, hm, hj⟩
  | true =>
    simp only [List.cons.injEq] at hc
    obtain ⟨rfl, rfl⟩ := hc
    obtain ⟨s', e, hi, hm, hj⟩ := h.true hr
    exact ⟨s', by simp [e, copyWord, ioResult, writeAll_clean hw], hi, hm, hj⟩
  | false =>
    simp only [List.cons.injEq] at hc
    obtain ⟨rfl, rfl⟩ := hc
    obtain ⟨s', e, hi, hm, hj⟩ := h.false hr
    exact ⟨s', by simp [e, copyWord, ioResult, writeAll_clean hw], hi, hm, hj⟩
  | string body hb hs =>
    simp only [List.cons.injEq] at hc
    obtain ⟨rfl, rfl⟩ := hc
    obtain ⟨s', w', e, ho, hi, hm, hj⟩ := h.string ⟨w.out ++ [34], []⟩ hb hs rfl (by simpa using hr)
    have hw' : w'.plan = [] := by
      have := handleLong_wrote .raw F s ⟨w.out ++ [34], []⟩
      rw [show RJ.handleLong .raw F s ⟨w.out ++ [34], []⟩ = _ from e] at this
      rcases this with h | ⟨_, _, _, h⟩
      · exact h.clean rfl
      · cases h
    refine ⟨s', ?_, hi, by simpa using hm, hj⟩
    rw [if_pos rfl, writeAll_clean hw]
    simp only [e, ioResult, writeAll_clean hw', ho]
    simp
  | number tok hn hl =>
    obtain ⟨c', r', e', hc'⟩ := number_first hn
    rw [hc] at e'
    injection e' with e1 e2
    subst e1
    obtain ⟨he1, he2⟩ := he hn
    obtain ⟨s', e, hi, hm, hj⟩ := h.number hn he1 he2 hr hl
    refine ⟨s', ?_, hi, hm, hj⟩
    have hne : c ≠ 34 ∧ c ≠ 110 ∧ c ≠ 116 ∧ c ≠ 102 := by
      refine ⟨?_, ?_, ?_, ?_⟩ <;> (rintro rfl; revert hc'; decide)
    simp [hne, e, ioResult, writeAll_clean hw]

theorem guarded_implements : Implements (guarded F) idtH (Inv M L F) (rules M L) := by
  refine ⟨?_, ?_⟩
  · intro p path v b s ws t hi h1 h2 h3 h4 h5 h6 h7
    have stay : ∃ n, n ≤ ws.length ∧ s.Moved s n := ⟨0, Nat.zero_le _, .refl hi.sync⟩
    cases p with
    | none =>
      cases path with
      | nil => rfl
      | cons key r =>
        simp only [guarded, Idt.find, idtH]
        by_cases hk : key ≠ nameTop ∧ key ≠ nameArray
        · rw [if_pos hk, if_pos hk]
          simp only [Option.map_some]
          generalize hb : ({ b with seqpos := if b.seqpos = .atBeginning then .atBeginningKey key else .inMiddleKey key } : Idt) = b1
          have hw : b1.w = b.w := by rw [← hb]
          unfold guardA
          by_cases hp : b1.w.plan = []
          · rw [if_pos hp, if_pos (by rw [← hw]; exact hp)]
            simp only [Idt.onKey, Idt.writeSeqpos_clean hp]
            exact ⟨trivial, hi, stay, fun h => ⟨h, trivial⟩⟩
          · rw [if_neg hp, if_neg (by rw [← hw]; exact hp)]
        · rw [if_neg hk, if_neg hk]
          rfl
    | atom =>
      cases v with
      | arr w is => exact absurd h1 (by simp [Starts])
      | obj w ms => exact absurd h1 (by simp [Starts])
      | atom tok =>
        obtain rfl := h4 (by decide)
        have ha : IsAtom (fun n => n.length + 1 ≤ L) M.str tok := h2
        obtain ⟨c, r, e, hc1, hc2, _⟩ := atom_first ha
        simp only [List.nil_append, Val.text] at h6
        obtain ⟨s1, e1, hi1, hm1⟩ := hi.peek (ws := []) (c := c) (t := r ++ t) (by rw [h6, e]; rfl) (by intro c hc; simp at hc) hc1 hc2
        have hr1 : s1.rest = tok ++ t := by rw [hm1.rest, h6]; rfl
        simp only [guarded, Idt.find, idtH, Option.map_some]
        generalize hb : ({ b with isTop := decide (path.length < 2) } : Idt) = b1
        have hw : b1.w = b.w := by rw [← hb]
        unfold guardA
        by_cases hp : b1.w.plan = []
        · rw [if_pos hp, if_pos (by rw [← hw]; exact hp)]
          obtain ⟨s2, e2, hi2, hm2, hj2⟩ := copyAtom_spec hi1 ha e h7 hr1 b1.led.w rfl
          simp only [Idt.onAtom, Idt.writeSeqpos_clean hp, e1, e2]
          refine ⟨rfl, hi2, ?_, hj2⟩
          have := hm1.trans hm2
          simpa [Val.text] using this
        · rw [if_neg hp, if_neg (by rw [← hw]; exact hp)]
    | array =>
      simp only [guarded, Idt.find, idtH, Option.map_some]
      generalize hb : ({ b with isTop := decide (path.length < 2) } : Idt) = b1
      have hw : b1.w = b.w := by rw [← hb]
      unfold guardA
      by_cases hp : b1.w.plan = []
      · rw [if_pos hp, if_pos (by rw [← hw]; exact hp)]
        simp only [Idt.onStruct, Idt.writeSeqpos_clean hp, Idt.write_clean (b := b1.led) rfl]
        exact ⟨trivial, hi, stay, fun h => ⟨h, trivial⟩⟩
      · rw [if_neg hp, if_neg (by rw [← hw]; exact hp)]
    | object =>
      simp only [guarded, Idt.find, idtH, Option.map_some]
      generalize hb : ({ b with isTop := decide (path.length < 2) } : Idt) = b1
      have hw : b1.w = b.w := by rw [← hb]
      unfold guardA
      by_cases hp : b1.w.plan = []
      · rw [if_pos hp, if_pos (by rw [← hw]; exact hp)]
        simp only [Idt.onStruct, Idt.writeSeqpos_clean hp, Idt.write_clean (b := b1.led) rfl]
        exact ⟨trivial, hi, stay, fun h => ⟨h, trivial⟩⟩
      · rw [if_neg hp, if_neg (by rw [← hw]; exact hp)]
  · intro p path b
    cases p with
    | none => rfl
    | atom => rfl
    | array =>
      simp only [guarded, Idt.findEnd, idtH, Option.map_some, guardE]
      by_cases hp : b.w.plan = []
      · rw [if_pos hp, if_pos hp]
        exact Idt.write_clean (b := { b with seqpos := .inMiddle }) hp _ _
      · rw [if_neg hp, if_neg hp]
    | object =>
      simp only [guarded, Idt.findEnd, idtH, Option.map_some, guardE]
      by_cases hp : b.w.plan = []
      · rw [if_pos hp, if_pos hp]
        exact Idt.write_clean (b := { b with seqpos := .inMiddle }) hp _ _
      · rw [if_neg hp, if_neg hp]

/-! ## What comes out -/

/-- The state with `out` written. -/
structure Says (b : Idt) (out : Bytes) (pos : SeqPos → Prop) (b' : Idt) : Prop where
  out : b'.w = ⟨b.w.out ++ out, []⟩
  pos : pos b'.seqpos

/-- `x` ends well, with `out` written. -/
def Ok (x : Out Idt) (b : Idt) (out : Bytes) (pos : SeqPos → Prop) : Prop := ∃ b', x = .done b' ∧ Says b out pos b'

theorem Ok.bind {x : Out Idt} {b : Idt} {o o' : Bytes} {pos pos' : SeqPos → Prop} {k : Idt → Out Idt} (h : Ok x b o pos)
    (hk : ∀ b', b'.w.plan = [] → pos b'.seqpos → Ok (k b') b' o' pos') : Ok (x.bind k) b (o ++ o') pos' := by
  obtain ⟨b1, rfl, h1, h2⟩ := h
  obtain ⟨b2, e, h3, h4⟩ := hk b1 (by rw [h1]) h2
  refine ⟨b2, e, ?_, h4⟩
  rw [h3, h1]
  simp

/-- What is written in front of a value at this place. -/
def sep (path : List Bytes) : SeqPos → Bytes
  | .inMiddle => if path.length < 2 then [32] else [44]
  | _ => []

/-- In front of a value. -/
def Front (p : SeqPos) : Prop := p = .atBeginning ∨ p = .inMiddle ∨ p = .afterKey
/-- Behind a value. -/
def Back (p : SeqPos) : Prop := p = .inMiddle ∨ p = .afterKey

theorem front_led {b : Idt} {path : List Bytes} (hp : Front b.seqpos) :
    ({ b with isTop := decide (path.length < 2) } : Idt).lead = sep path b.seqpos := by
  rcases hp with h | h | h <;> simp [Idt.lead, sep, h]

variable (R : Room)

theorem end_ok {p : Pseudo} {c : Byte} (hp : p = .array ∧ c = 93 ∨ p = .object ∧ c = 125) (path : List Bytes) (b : Idt) (h : b.w.plan = []) :
    Ok (Handler.end idtH p path b) b [c] (· = .inMiddle) := by
  rcases hp with ⟨rfl, rfl⟩ | ⟨rfl, rfl⟩
  · refine ⟨({ b with seqpos := .inMiddle } : Idt).put [93], ?_, rfl, rfl⟩
    simp only [Handler.end, idtH, if_pos h]
  · refine ⟨({ b with seqpos := .inMiddle } : Idt).put [125], ?_, rfl, rfl⟩
    simp only [Handler.end, idtH, if_pos h]

theorem back_key {b : Idt} (h : b.w.plan = []) (path : List Bytes) (hb : Back b.seqpos) : Ok (Handler.end idtH .none path b) b [] Back :=
  ⟨b, rfl, Writer.clean_eq h (by simp), hb⟩

/-- The state with its position: an item in an array is not behind a key, and the last value of a member is. -/
def Later (p q : SeqPos) : Prop := q = .inMiddle ∨ p = .afterKey ∧ q = .afterKey

theorem Later.back {p q : SeqPos} (h : Later p q) : Back q := by
  rcases h with h | ⟨_, h⟩
  · exact .inl h
  · exact .inr h

mutual
theorem Val.scan_idt : ∀ (v : Val) (path : List Bytes) (b : Idt), v.Fit R path → v.Keys Usual → b.w.plan = [] → 1 ≤ path.length →
    Front b.seqpos → Ok (v.scan idtH R path b) b (sep path b.seqpos ++ v.strip.text) (Later b.seqpos)
  | .atom tok, path, b, _, _, hw, _, hp => by
    have hl := front_led (path := path) hp
    simp only [Val.scan, Handler.around, idtH, if_pos hw]
    refine ⟨_, rfl, ?_, ?_⟩
    · simp only [Idt.put, Idt.led, hl, Val.text, Val.strip, List.append_assoc]
    · rcases hp with h | h | h <;> simp [Idt.put, Idt.led, Later, h]
  | .arr w items, path, b, hf, hk, hw, hn, hp => by
    have hl := front_led (path := path) hp
    simp only [Val.Fit] at hf
    simp only [Val.Keys] at hk
    simp only [Val.scan, Handler.around, idtH, if_pos hw, if_pos hf.1]
    generalize hb : ({ ({ b with isTop := decide (path.length < 2) } : Idt).led.put [91] with seqpos := .atBeginning } : Idt) = b1
    have hp1 : b1.seqpos = .atBeginning := by rw [← hb]
    have hw1 : b1.w = ⟨b.w.out ++ (sep path b.seqpos ++ [91]), []⟩ := by
      rw [← hb]
      simp only [Idt.put, Idt.led, hl, List.append_assoc]
    have := Ok.bind (Items.scan_idt items (nameArray :: path) b1 hf.2 hk (by rw [hw1]) (by simp only [List.length_cons]; omega) (.inl hp1))
      (fun b' h _ => end_ok (.inl ⟨rfl, rfl⟩) path b' h)
    obtain ⟨b2, e, h1, h2⟩ := this
    refine ⟨b2, e, ?_, .inl h2⟩
    rw [h1, hw1, hp1]
    simp [Val.strip, Val.text]
  | .obj w members, path, b, hf, hk, hw, hn, hp => by
    have hl := front_led (path := path) hp
    simp only [Val.Fit] at hf
    simp only [Val.Keys] at hk
    simp only [Val.scan, Handler.around, idtH, if_pos hw]
    generalize hb : ({ ({ b with isTop := decide (path.length < 2) } : Idt).led.put [123] with seqpos := .atBeginning } : Idt) = b1
    have hp1 : b1.seqpos = .atBeginning := by rw [← hb]
    have hw1 : b1.w = ⟨b.w.out ++ (sep path b.seqpos ++ [123]), []⟩ := by
      rw [← hb]
      simp only [Idt.put, Idt.led, hl, List.append_assoc]
    have := Ok.bind (Members.scan_idt members path b1 hf hk (by rw [hw1]) hn (.inl hp1))
      (fun b' h _ => end_ok (.inr ⟨rfl, rfl⟩) path b' h)
    obtain ⟨b2, e, h1, h2⟩ := this
    refine ⟨b2, e, ?_, .inl h2⟩
    rw [h1, hw1, hp1]
    simp [Val.strip, Val.text]
theorem Items.scan_idt : ∀ (is : Items) (path : List Bytes) (b : Idt), is.Fit R path → is.Keys Usual → b.w.plan = [] → 2 ≤ path.length →
    b.seqpos = .atBeginning ∨ b.seqpos = .inMiddle →
    Ok (is.scan idtH R path b) b (if b.seqpos = .atBeginning then is.strip.text else is.strip.textMore) (fun _ => True)
  | .nil, path, b, _, _, hw, _, _ => by
    refine ⟨b, rfl, Writer.clean_eq hw ?_, trivial⟩
    simp only [Items.strip, Items.text, Items.textMore, ite_self, List.append_nil]
  | .cons _ v _ more, path, b, hf, hk, hw, hn, hp => by
    simp only [Items.Fit] at hf
    simp only [Items.Keys] at hk
    simp only [Items.scan]
    have h2 : ¬ path.length < 2 := by omega
    have hp' : Front b.seqpos := by rcases hp with h | h <;> simp [Front, h]
    have := Ok.bind (Val.scan_idt v path b hf.1 hk.1 hw (by omega) hp') (o' := more.strip.textMore) (pos' := fun _ => True)
      (k := more.scan idtH R path) (by
        intro b' h' ha
        have hm : b'.seqpos = .inMiddle := by
          rcases ha with ha | ⟨ha, _⟩
          · exact ha
          · rcases hp with h | h <;> rw [h] at ha <;> cases ha
        have := Items.scan_idt more path b' hf.2 hk.2 h' hn (.inr hm)
        rw [if_neg (by rw [hm]; decide)] at this
        exact this)
    obtain ⟨b2, e, h1, h3⟩ := this
    refine ⟨b2, e, ?_, trivial⟩
    rw [h1]
    rcases hp with h | h <;> simp [h, sep, h2, Items.strip, Items.text, Items.textMore]
theorem Members.scan_idt : ∀ (ms : Members) (path : List Bytes) (b : Idt), ms.Fit R path → ms.Keys Usual → b.w.plan = [] → 1 ≤ path.length →
    Front b.seqpos →
    Ok (ms.scan idtH R path b) b (if b.seqpos = .atBeginning then ms.strip.text else ms.strip.textMore) (fun _ => True)
  | .nil, path, b, _, _, hw, _, _ => by
    refine ⟨b, rfl, Writer.clean_eq hw ?_, trivial⟩
    simp only [Members.strip, Members.text, Members.textMore, ite_self, List.append_nil]
  | .cons _ k _ _ v _ more, path, b, hf, hk, hw, hn, hp => by
    simp only [Members.Fit] at hf
    simp only [Members.Keys] at hk
    simp only [Members.scan, if_pos hf.1, Handler.around, idtH, if_pos ((usual_iff k).1 hk.1), if_pos hw]
    generalize hb : ({ ({ b with seqpos := if b.seqpos = .atBeginning then .atBeginningKey k else .inMiddleKey k } : Idt).led with
      seqpos := .afterKey } : Idt) = b1
    have hp1 : b1.seqpos = .afterKey := by rw [← hb]
    have hw1 : b1.w = ⟨b.w.out ++ (if b.seqpos = .atBeginning then 34 :: (k ++ [34, 58]) else 44 :: 34 :: (k ++ [34, 58])), []⟩ := by
      rw [← hb]
      by_cases h : b.seqpos = .atBeginning
      · simp [Idt.led, Idt.put, Idt.lead, h]
      · simp [Idt.led, Idt.put, Idt.lead, h]
    have := Ok.bind (Ok.bind (Val.scan_idt v (k :: path) b1 hf.2.1 hk.2.1 (by rw [hw1]) (by simp) (.inr (.inr hp1)))
      (fun b' h ha => back_key h (k :: path) ha.back)) (o' := more.strip.textMore) (pos' := fun _ => True)
      (k := more.scan idtH R path) (by
        intro b' h' ha
        have := Members.scan_idt more path b' hf.2.2 hk.2.2 h' hn (.inr ha)
        rw [if_neg (by rcases ha with h | h <;> rw [h] <;> decide)] at this
        exact this)
    obtain ⟨b2, e, h1, h3⟩ := this
    refine ⟨b2, e, ?_, trivial⟩
    rw [h1, hw1, hp1]
    by_cases h : b.seqpos = .atBeginning <;> simp [h, sep, Members.strip, Members.text, Members.textMore]
end

/-! ## C38 -/

/-- **C38, partial.** Full statement: for every well-formed document and chunking, as long as the tokens fit in the
buffer and the nesting in the pool. It is false, see `C38_top_key` and `C31_chunks`. Proved: in the situations described by
a mode (as C32), for documents without the keys `#top` and `#array`, `idtransform` writes the document without the
space between its tokens, consumes it and nothing behind it. -/
theorem C38_output_partial (M : Mode) (L F : Nat) (R : Room) (l : List (Pos × Bytes)) (b t : Bytes) (v : Val) (rj : RJ)
    (w : Writer) (pool : Pool) (hi : Inv M L F rj) (hrd : Ready rj) (hst : Holds pool R l) (hr : rj.rest = b ++ (v.text ++ t))
    (hb : Spaces b) (hv : v.Meets (rules M L)) (hh : v.HeadMeets (rules M L) b) (he : Ends v t) (hfit : R.Fits (names l) nameTop)
    (hfits : v.Fit R (nameTop :: names l)) (hk : v.Keys Usual) (hw : w.plan = []) :
    ∃ rj' pool', (∀ turns, v.text.length + 2 ≤ turns →
        idtransform turns F rj w pool = ((rj', ⟨w.out ++ v.strip.text, []⟩, pool'), .ok ())) ∧
      rj.Moved rj' (b.length + v.text.length) ∧ rj'.rest = t := by
  have h := scan_first (guarded_implements (M := M) (L := L) (F := F)) (opt := ⟨[], true⟩) rfl b t v l ⟨rj, .new w, pool⟩ hi hrd hst
    hfit hb hv hh he hr
  obtain ⟨b', e, h1, _⟩ := Val.scan_idt R v (nameTop :: names l) (.new w) hfits hk hw (by simp) (.inl rfl)
  rw [e] at h
  obtain ⟨st', rfl, ⟨_, h2, h3, _⟩, h4⟩ := h
  refine ⟨st'.rj, st'.pool, ?_, h2, ?_⟩
  · intro turns hn
    obtain ⟨g, e1, e2⟩ := scan_same (guarded_sim F) turns F ⟨[], true⟩ rj (.new w) (.new w) pool ⟨rfl, hw⟩
    rw [h4 turns hn] at e1
    revert e1 e2
    unfold idtransform
    rcases scan turns F (Idt.callbacks F) ⟨[], true⟩ ⟨rj, .new w, pool⟩ with ⟨⟨rj1, b1, p1⟩, r⟩
    intro e1 e2
    simp only [Prod.mk.injEq] at e1
    obtain ⟨rfl, rfl⟩ := e1
    obtain ⟨rfl, _⟩ := e2.rel
    simp only at h1 ⊢
    rw [h1]
    rfl
  · rw [h2.rest, hr, ← List.append_assoc, ← List.length_append, List.drop_left]

/-- **C38, partial** (see above): of an input that is only space nothing is written. -/
theorem C38_no_document (M : Mode) (L F : Nat) (R : Room) (l : List (Pos × Bytes)) (rj : RJ) (w : Writer) (pool : Pool)
    (hi : Inv M L F rj) (hst : Holds pool R l) (hr : Spaces rj.rest) (hfit : R.Fits (names l) nameTop) :
    ∃ rj' pool', (∀ turns, 1 ≤ turns → idtransform turns F rj w pool = ((rj', w, pool'), .ok ())) ∧
      rj.Moved rj' rj.rest.length := by
  obtain ⟨p', r, e, hp⟩ := hst.push .top nameTop hfit
  obtain ⟨s1, x, s2, e1, e2, hi2, hm2⟩ := hi.atEnd hr
  refine ⟨s2, p', ?_, hm2⟩
  intro turns hn
  unfold idtransform scan
  rw [e]
  simp only
  rw [show turns = (turns - 1) + 1 by omega, mainLoop_go (by simp), turn_end e1 e2]
  rfl

/-- ` [{"k": [1,true]}, "x"] ` byte by byte into a buffer of eight bytes, and what is written. -/
example : Inv (streamMode false false 8) 8 100 exSt.rj ∧ Ready exSt.rj ∧ Holds exSt.pool exRoom [] ∧
    exSt.rj.rest = [32] ++ (exArr.text ++ [32]) ∧ exArr.Meets (rules (streamMode false false 8) 8) ∧
    exArr.HeadMeets (rules (streamMode false false 8) 8) [32] ∧ Ends exArr [32] ∧
    exRoom.Fits (names []) nameTop ∧ exArr.Fit exRoom [nameTop] ∧ exArr.Keys Usual ∧
    exArr.strip.text = "[{\"k\":[1,true]},\"x\"]".toUTF8.toList :=
  ⟨exSt_inv, ready_new _ _, exPool_holds, by decide, exSt_meets.2.1, trivial, trivial, by decide, exArr_fit.1,
    ⟨⟨by rw [usual_iff]; decide, ⟨trivial, trivial, trivial⟩, trivial⟩, trivial, trivial⟩, by decide +kernel⟩

/-- What comes out of the model. -/
example : (idtransform 40 100 exSt.rj ⟨[], []⟩ exPool).1.2.1.out = "[{\"k\":[1,true]},\"x\"]".toUTF8.toList ∧
    (idtransform 40 100 exSt.rj ⟨[], []⟩ exPool).2 = .ok () := by decide +kernel

/-- `{"a":1,"#top":2}` -/
def exTop : Val :=
  .obj [] (.cons [] [97] [] [] (.atom [49]) [] (.cons [] nameTop [] [] (.atom [50]) [] .nil))

/-- **C38 is false** for a document with the key `#top`: of `{"a":1,"#top":2}` the output is `{"a":12}`. -/
theorem C38_top_key : ∃ (rj : RJ) (pool : Pool), Inv wholeMode 20 100 rj ∧ Ready rj ∧ Holds pool exRoom [] ∧ rj.rest = exTop.text ∧
    exTop.text = "{\"a\":1,\"#top\":2}".toUTF8.toList ∧
    ∀ turns, 20 ≤ turns → (idtransform turns 100 rj ⟨[], []⟩ pool).1.2.1.out = "{\"a\":12}".toUTF8.toList ∧
      (idtransform turns 100 rj ⟨[], []⟩ pool).2 = .ok () := by
  refine ⟨.new [.data 123 exTop.text.tail] (List.replicate 40 0), exPool, whole_new _ _ 20 100 trivial (by decide) (by decide)
    (by decide) (by decide), ready_new _ _, exPool_holds, by decide, by decide +kernel, ?_⟩
  intro turns ht
  obtain ⟨n, rfl⟩ : ∃ n, turns = n + 20 := ⟨turns - 20, by omega⟩
  rw [show "{\"a\":12}".toUTF8.toList = [123, 34, 97, 34, 58, 49, 50, 125] by decide +kernel]
  constructor <;> rfl

end Verif.Scan
