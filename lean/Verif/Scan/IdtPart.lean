import Verif.Scan.PartProps
import Verif.RJiter.PropsPart

/-!
# What `idtransform` has written when it fails (C90)
-/

namespace Verif.Scan

open Verif.U8Pool (Pool)
open Verif.RJiter

/-! ## Specification -/

mutual
/-- The keys in front of the stop all have the property `P`. -/
def Stub.Keys (P : Bytes → Prop) : Stub → Prop
  | .nothing => True
  | .begun _ => True
  | .arr _ is => is.Keys P
  | .obj _ ms => ms.Keys P
@[inherit_doc Stub.Keys]
def StubItems.Keys (P : Bytes → Prop) : StubItems → Prop
  | .closed => True
  | .here _ x => x.Keys P
  | .later _ v _ more => v.Keys P ∧ more.Keys P
@[inherit_doc Stub.Keys]
def StubMore.Keys (P : Bytes → Prop) : StubMore → Prop
  | .nothing => True
  | .closed => True
  | .comma is => is.Keys P
@[inherit_doc Stub.Keys]
def StubMembers.Keys (P : Bytes → Prop) : StubMembers → Prop
  | .closed => True
  | .key _ k _ => P k
  | .here _ k _ _ x => P k ∧ x.Keys P
  | .ended _ k _ _ v => P k ∧ v.Keys P
  | .later _ k _ _ v _ more => P k ∧ v.Keys P ∧ more.Keys P
@[inherit_doc Stub.Keys]
def StubRest.Keys (P : Bytes → Prop) : StubRest → Prop
  | .nothing => True
  | .closed => True
  | .comma ms => ms.Keys P
end

mutual
/-- The beginning of a document without space between its tokens. `sep` is what separates it from what is in front of it; of an
atom at the stop, there is `y`. -/
def Stub.copy (y : Bytes) (sep : Bytes) : Stub → Bytes
  | .nothing => []
  | .begun .array => sep ++ [91]
  | .begun .object => sep ++ [123]
  | .begun _ => sep ++ y
  | .arr _ is => sep ++ 91 :: is.copy y []
  | .obj _ ms => sep ++ 123 :: ms.copy y []
@[inherit_doc Stub.copy]
def StubItems.copy (y : Bytes) (sep : Bytes) : StubItems → Bytes
  | .closed => []
  | .here _ x => x.copy y sep
  | .later _ v _ more => sep ++ (v.strip.text ++ more.copy y)
@[inherit_doc Stub.copy]
def StubMore.copy (y : Bytes) : StubMore → Bytes
  | .nothing => []
  | .closed => []
  | .comma is => is.copy y [44]
@[inherit_doc Stub.copy]
def StubMembers.copy (y : Bytes) (sep : Bytes) : StubMembers → Bytes
  | .closed => []
  | .key _ _ _ => []
  | .here _ k _ _ x => sep ++ 34 :: (k ++ 34 :: 58 :: x.copy y [])
  | .ended _ _ _ _ _ => []
  | .later _ k _ _ v _ more => sep ++ 34 :: (k ++ 34 :: 58 :: (v.strip.text ++ more.copy y))
@[inherit_doc Stub.copy]
def StubRest.copy (y : Bytes) : StubRest → Bytes
  | .nothing => []
  | .closed => []
  | .comma ms => ms.copy y [44]
end

/-- `t` starts with space and then with `y`, which is nothing or the beginning of a string. -/
def Copied (strict : Prop) (t y : Bytes) : Prop :=
  ∃ a c, t = a ++ (y ++ c) ∧ Blank a ∧ (y = [] ∨ ∃ z, y = 34 :: z ∧ Weak z ∧ (strict → Skim true z))

theorem Copied.none (strict : Prop) (t : Bytes) : Copied strict t [] := ⟨[], t, rfl, List.forall_mem_nil _, .inl rfl⟩

/-! ## The actions -/

theorem guarded_sim_eq (F : Nat) : Sim (Idt.callbacks F) (guarded F) (fun b g => b = g ∧ b.w.plan = []) (fun _ _ b g => b = g) := by
  have hk := fun w => callbacks_keep F w
  constructor
  · rintro p c b _ ⟨rfl, h⟩
    obtain ⟨h1, h2⟩ := (hk b.w).find p c b (Wrote.refl _)
    revert h1 h2
    simp only [Idt.callbacks, guarded]
    rcases Idt.find F p c b with ⟨b1, _ | a⟩
    · exact fun h1 _ => ⟨⟨trivial, h1.clean h⟩, trivial⟩
    · intro h1 h2
      refine ⟨⟨trivial, h1.clean h⟩, fun s => ?_⟩
      have h2 := h2 a rfl s
      have hc : b1.w.plan = [] := h1.clean h
      simp only at h2 ⊢
      unfold guardA
      rw [if_pos hc]
      refine ⟨rfl, rfl, ?_⟩
      revert h2
      rcases a s b1 with ⟨⟨s', b'⟩, (_ | _ | m) | _ | _⟩
      · exact fun h2 => ⟨rfl, h2.clean h⟩
      · exact fun h2 => ⟨rfl, h2.clean h⟩
      · exact fun _ => rfl
      · exact fun h2 => ⟨rfl, h2.clean h⟩
      · exact fun h2 => ⟨rfl, h2.clean h⟩
  · rintro p c b _ ⟨rfl, h⟩
    obtain ⟨h1, h2⟩ := (hk b.w).findEnd p c b (Wrote.refl _)
    revert h1 h2
    simp only [Idt.callbacks, guarded]
    rcases Idt.findEnd p c b with ⟨b1, _ | a⟩
    · exact fun h1 _ => ⟨⟨trivial, h1.clean h⟩, trivial⟩
    · intro h1 h2
      have h2 := h2 a rfl
      have hc : b1.w.plan = [] := h1.clean h
      refine ⟨⟨trivial, hc⟩, ?_⟩
      simp only [Option.map_some] at h2 ⊢
      unfold guardE
      rw [if_pos hc]
      refine ⟨rfl, ?_⟩
      revert h2
      rcases a b1 with ⟨b', _ | m⟩
      · exact fun h2 => ⟨rfl, h2.clean h⟩
      · exact fun _ _ => rfl

theorem copyAtom_part {strict : Prop} {F : Nat} {s s' : RJ} {c : Byte} {t : Bytes} {w w' : Writer} {r : SRes Unit} (h : s.Sync)
    (hsf : strict → Harmless s) (hr : s.rest = c :: t) (hw : w.plan = []) (hx : copyAtom F c s w = ((s', w'), r)) (ho : r ≠ .ok ()) :
    ∃ y, Copied strict s.rest y ∧ w' = ⟨w.out ++ y, []⟩ := by
  have hstay : w' = w → ∃ y, Copied strict s.rest y ∧ w' = ⟨w.out ++ y, []⟩ := fun e =>
    ⟨[], .none _ _, by rw [e]; exact Writer.clean_eq hw (by simp)⟩
  have hword : ∀ {α : Type} (word : Bytes) (x : RJ × Res α), copyWord word w x = ((s', w'), r) → w' = w := by
    intro α word x hx
    rcases x with ⟨s1, v | e | _ | _⟩
    · simp only [copyWord, writeAll_clean hw, ioResult, Prod.mk.injEq] at hx
      exact absurd hx.2.symm ho
    all_goals simp only [copyWord, Prod.mk.injEq] at hx; exact hx.1.2.symm
  unfold copyAtom at hx
  by_cases h1 : c = 34
  · subst h1
    rw [if_pos rfl, writeAll_clean hw] at hx
    simp only at hx
    obtain ⟨y', t', y, z, e1, e0, e2, e3, e4, e5⟩ := C89_bytes s F ⟨w.out ++ [34], []⟩ _ _ h hr (by decide)
    rw [e5 rfl, List.append_nil] at e0
    subst e0
    rcases hy : s.writeLongBytes F ⟨w.out ++ [34], []⟩ with ⟨⟨s1, w1⟩, r1⟩
    rw [hy] at hx e2
    have hp : w1.plan = [] := by
      have := handleLong_wrote .raw F s ⟨w.out ++ [34], []⟩
      rw [show RJ.handleLong .raw F s ⟨w.out ++ [34], []⟩ = _ from hy] at this
      rcases this with h | ⟨_, _, hk, _⟩
      · exact h.clean rfl
      · obtain ⟨pre, f, hq, _⟩ := hk
        simp at hq
    have hgo : w' = w1 → ∃ y, Copied strict s.rest y ∧ w' = ⟨w.out ++ y, []⟩ := fun e => by
      refine ⟨34 :: y', ⟨[], t', ?_, List.forall_mem_nil _, .inr ⟨_, rfl, e3, fun hs => e4 (hsf hs)⟩⟩, ?_⟩
      · rw [hr, e1]; rfl
      · rw [e]; refine Writer.clean_eq hp ?_
        rw [show w1.out = _ from e2]; simp
    cases r1 with
    | ok u =>
      simp only [writeAll_clean hp, ioResult, Prod.mk.injEq] at hx
      exact absurd hx.2.symm ho
    | err e => simp only [Prod.mk.injEq] at hx; exact hgo hx.1.2.symm
    | panic => simp only [Prod.mk.injEq] at hx; exact hgo hx.1.2.symm
    | diverge => simp only [Prod.mk.injEq] at hx; exact hgo hx.1.2.symm
  rw [if_neg h1] at hx
  by_cases h2 : c = 110
  · rw [if_pos h2] at hx; exact hstay (hword _ _ hx)
  rw [if_neg h2] at hx
  by_cases h3 : c = 116
  · rw [if_pos h3] at hx; exact hstay (hword _ _ hx)
  rw [if_neg h3] at hx
  by_cases h4 : c = 102
  · rw [if_pos h4] at hx; exact hstay (hword _ _ hx)
  rw [if_neg h4] at hx
  rcases hy : s.nextNumberBytes F with ⟨s1, r1⟩
  rw [hy] at hx
  cases r1 with
  | ok u =>
    simp only [writeAll_clean hw, ioResult, Prod.mk.injEq] at hx
    exact absurd hx.2.symm ho
  | err e => simp only [Prod.mk.injEq] at hx; exact hstay hx.1.2.symm
  | panic => simp only [Prod.mk.injEq] at hx; exact hstay hx.1.2.symm
  | diverge => simp only [Prod.mk.injEq] at hx; exact hstay hx.1.2.symm

theorem Idt.storeError_w (b : Idt) (e : SErr) : (b.storeError e).w = b.w := by
  unfold Idt.storeError
  split
  · rfl
  · split <;> rfl
  · rfl

/-- What a begin callback that fails does, with a writer that does not fail. -/
def idtE (strict : Prop) : Failing Idt := fun p path t b b' => b.w.plan = [] → p = .atom ∧
  ∃ y, Copied strict t y ∧ b'.w = ⟨b.w.out ++ (({ b with isTop := decide (path.length < 2) } : Idt).lead ++ y), []⟩

theorem guarded_sees_all (F : Nat) (strict : Care) : SeesAll (guarded F) idtH (idtE strict.safe) F strict := by
  refine ⟨guarded_sees F strict, ?_⟩
  intro p path b s hf
  cases p with
  | none =>
    cases path with
    | nil => trivial
    | cons key r =>
      simp only [guarded, Idt.find]
      by_cases hk : key ≠ nameTop ∧ key ≠ nameArray
      · rw [if_pos hk]
        simp only [Option.map_some]
        generalize hb : ({ b with seqpos := if b.seqpos = .atBeginning then .atBeginningKey key else .inMiddleKey key } : Idt) = b1
        have hw : b1.w = b.w := by rw [← hb]
        unfold guardA
        by_cases hp : b1.w.plan = []
        · rw [if_pos hp]
          simp only [Idt.onKey, Idt.writeSeqpos_clean hp]
        · rw [if_neg hp]
          exact fun h => absurd (hw ▸ h) hp
      · rw [if_neg hk]
        trivial
  | atom =>
    simp only [guarded, Idt.find, Option.map_some]
    unfold idtE
    generalize hb : ({ b with isTop := decide (path.length < 2) } : Idt) = b1
    have hw : b1.w = b.w := by rw [← hb]
    unfold guardA
    by_cases hp : b1.w.plan = []
    · rw [if_pos hp]
      have hgo : ∀ (w2 : Writer) (y t : Bytes), w2 = ⟨b1.led.w.out ++ y, []⟩ → Copied strict.safe t y → b.w.plan = [] →
          True ∧ ∃ y, Copied strict.safe t y ∧ w2 = ⟨b.w.out ++ (b1.lead ++ y), []⟩ := by
        intro w2 y t e hc _
        refine ⟨trivial, y, hc, ?_⟩
        rw [e]
        simp [Idt.led, Idt.put, hw]
      simp only [Idt.onAtom, Idt.writeSeqpos_clean hp]
      rcases hx : s.peek F with ⟨s1, c | e | _ | _⟩
      · obtain ⟨ws, t, e, hws, hc, hs, hm⟩ := RJ.peek_text hf.usable.sync hf.len hf.usable.fuel hx
        have hf1 : Fine F strict s1 := hf.loop hm hx
        simp only
        have hpart : ∀ s2 w2 r, copyAtom F c s1 b1.led.w = ((s2, w2), r) → r ≠ .ok () →
            ∃ y, Copied strict.safe s.rest y ∧ w2 = ⟨b1.led.w.out ++ y, []⟩ := by
          intro s2 w2 r hy ho
          obtain ⟨y, ⟨a, c', h1, h2, h3⟩, h4⟩ := copyAtom_part hf1.usable.sync hf1.safe hs rfl hy ho
          refine ⟨y, ⟨ws ++ a, c', ?_, (Blank.of_aws hws).append h2, h3⟩, h4⟩
          rw [e, ← hs, h1, List.append_assoc]
        rcases hy : copyAtom F c s1 b1.led.w with ⟨⟨s2, w2⟩, u | e2 | _ | _⟩
        · trivial
        · obtain ⟨y, h1, h2⟩ := hpart _ _ _ hy (by simp)
          simp only [Idt.storeError_w]
          exact hgo w2 y _ h2 h1
        · obtain ⟨y, h1, h2⟩ := hpart _ _ _ hy (by simp)
          exact hgo w2 y _ h2 h1
        · obtain ⟨y, h1, h2⟩ := hpart _ _ _ hy (by simp)
          exact hgo w2 y _ h2 h1
      · simp only [Idt.storeError_w]
        exact hgo b1.led.w [] _ (Writer.clean_eq rfl (by simp)) (.none _ _)
      · exact hgo b1.led.w [] _ (Writer.clean_eq rfl (by simp)) (.none _ _)
      · exact hgo b1.led.w [] _ (Writer.clean_eq rfl (by simp)) (.none _ _)
    · rw [if_neg hp]
      exact fun h => absurd (hw ▸ h) hp
  | array =>
    simp only [guarded, Idt.find, Option.map_some]
    generalize hb : ({ b with isTop := decide (path.length < 2) } : Idt) = b1
    have hw : b1.w = b.w := by rw [← hb]
    unfold guardA
    by_cases hp : b1.w.plan = []
    · rw [if_pos hp]
      simp only [Idt.onStruct, Idt.writeSeqpos_clean hp, Idt.write_clean (b := b1.led) rfl]
    · rw [if_neg hp]
      exact fun h => absurd (hw ▸ h) hp
  | object =>
    simp only [guarded, Idt.find, Option.map_some]
    generalize hb : ({ b with isTop := decide (path.length < 2) } : Idt) = b1
    have hw : b1.w = b.w := by rw [← hb]
    unfold guardA
    by_cases hp : b1.w.plan = []
    · rw [if_pos hp]
      simp only [Idt.onStruct, Idt.writeSeqpos_clean hp, Idt.write_clean (b := b1.led) rfl]
    · rw [if_neg hp]
      exact fun h => absurd (hw ▸ h) hp

/-! ## What comes out -/

section
variable {R : Room} {strict : Prop}

/-- The state with `x`, which may contain `y`, written. -/
def Left (strict : Prop) (b : Idt) (t : Bytes) (x : Bytes → Bytes) (b' : Idt) : Prop :=
  ∃ y, Copied strict t y ∧ b'.w = ⟨b.w.out ++ x y, []⟩

theorem Left.stay {b : Idt} {t : Bytes} {x : Bytes → Bytes} (h : b.w.plan = []) (hx : x [] = []) : Left strict b t x b :=
  ⟨[], .none _ t, Writer.clean_eq h (by rw [hx, List.append_nil])⟩

theorem Left.after {b b1 b' : Idt} {t z : Bytes} {x x' : Bytes → Bytes} (h : Left strict b1 t x b') (h1 : b1.w = ⟨b.w.out ++ z, []⟩)
    (hx : ∀ y, x' y = z ++ x y) : Left strict b t x' b' := by
  obtain ⟨y, hc, e⟩ := h
  exact ⟨y, hc, by rw [e, h1, hx, List.append_assoc]⟩

theorem idtH_endFails {p : Pseudo} {path : List Bytes} {b b' : Idt} (h : b.w.plan = []) : ¬ EndFails idtH p path b b' := by
  rintro ⟨m, hm⟩
  cases p <;> simp [idtH, h] at hm

theorem idtH_array {path : List Bytes} {b b' : Idt} (h : b.w.plan = []) (hp : Front b.seqpos) (hx : Passes idtH .array path b b') :
    b'.seqpos = .atBeginning ∧ b'.w = ⟨b.w.out ++ (sep path b.seqpos ++ [91]), []⟩ := by
  have := hx (.atom [])
  simp only [idtH, if_pos h, Prod.mk.injEq, and_true] at this
  rw [← this]
  refine ⟨rfl, ?_⟩
  simp only [Idt.put, Idt.led, front_led hp, List.append_assoc]

theorem idtH_object {path : List Bytes} {b b' : Idt} (h : b.w.plan = []) (hp : Front b.seqpos) (hx : Passes idtH .object path b b') :
    b'.seqpos = .atBeginning ∧ b'.w = ⟨b.w.out ++ (sep path b.seqpos ++ [123]), []⟩ := by
  have := hx (.atom [])
  simp only [idtH, if_pos h, Prod.mk.injEq, and_true] at this
  rw [← this]
  refine ⟨rfl, ?_⟩
  simp only [Idt.put, Idt.led, front_led hp, List.append_assoc]

/-- What separates a member from what is in front of it. -/
def sepMember (p : SeqPos) : Bytes := if p = .atBeginning then [] else [44]

/-- Behind a key. -/
def Idt.keyed (b : Idt) (k : Bytes) : Idt :=
  { ({ b with seqpos := if b.seqpos = .atBeginning then .atBeginningKey k else .inMiddleKey k } : Idt).led with seqpos := .afterKey }

theorem Idt.keyed_w (b : Idt) (k : Bytes) : (b.keyed k).w = ⟨b.w.out ++ (sepMember b.seqpos ++ 34 :: (k ++ [34, 58])), []⟩ := by
  by_cases h : b.seqpos = .atBeginning
  · simp [Idt.keyed, Idt.led, Idt.put, Idt.lead, sepMember, h]
  · simp [Idt.keyed, Idt.led, Idt.put, Idt.lead, sepMember, h]

theorem idtH_key {path : List Bytes} {b : Idt} {k : Bytes} (h : b.w.plan = []) (hk : Usual k) (v : Val) :
    idtH.start .none (k :: path) v b = (b.keyed k, .none) := by
  simp only [idtH, if_pos ((usual_iff k).1 hk), if_pos h, Idt.keyed]

mutual
theorem Stub.Gives.left : ∀ (x : Stub) (path : List Bytes) (t : Bytes) (b b' : Idt), x.Gives idtH (idtE strict) R path t b b' → x.Keys Usual →
    b.w.plan = [] → 1 ≤ path.length → Front b.seqpos → x.Open ∧ Left strict b t (fun y => x.copy y (sep path b.seqpos)) b'
  | .nothing, path, t, b, b', h, _, hw, _, _ => by
    rw [show b' = b from h]
    exact ⟨trivial, .stay hw rfl⟩
  | .begun p, path, t, b, b', h, _, hw, _, hp => by
    refine ⟨trivial, ?_⟩
    rcases h with ⟨hn, h | h⟩
    · cases p with
      | none => exact hn.elim
      | atom =>
        have := h (.atom [])
        simp [idtH, hw] at this
      | array => exact ⟨[], .none _ t, (idtH_array hw hp h).2⟩
      | object => exact ⟨[], .none _ t, (idtH_object hw hp h).2⟩
    · obtain ⟨rfl, y, hc, e⟩ := h hw
      refine ⟨y, hc, ?_⟩
      rw [e, front_led hp]
      rfl
  | .arr w is, path, t, b, b', h, hk, hw, hn, hp => by
    obtain ⟨b1, h1, _, h2⟩ := h
    obtain ⟨e1, e2⟩ := idtH_array hw hp h1
    obtain ⟨h3, h4⟩ := StubItems.Gives.left is _ _ _ _ _ h2 hk (by rw [e2]) (by simp only [List.length_cons]; omega) (.inl e1)
    refine ⟨h3, h4.after e2 fun y => ?_⟩
    simp [Stub.copy, sep, e1]
  | .obj w ms, path, t, b, b', h, hk, hw, hn, hp => by
    obtain ⟨b1, h1, h2⟩ := h
    obtain ⟨e1, e2⟩ := idtH_object hw hp h1
    obtain ⟨h3, h4⟩ := StubMembers.Gives.left ms _ _ _ _ h2 hk (by rw [e2]) hn (.inl e1)
    refine ⟨h3, h4.after e2 fun y => ?_⟩
    simp [Stub.copy, sepMember, e1]
theorem StubItems.Gives.left : ∀ (is : StubItems) (path outer : List Bytes) (t : Bytes) (b b' : Idt),
    is.Gives idtH (idtE strict) R path outer t b b' → is.Keys Usual → b.w.plan = [] → 2 ≤ path.length →
    b.seqpos = .atBeginning ∨ b.seqpos = .inMiddle → is.Open ∧ Left strict b t (fun y => is.copy y (sep path b.seqpos)) b'
  | .closed, path, outer, t, b, b', h, _, hw, _, _ => absurd h (idtH_endFails hw)
  | .here _ x, path, outer, t, b, b', h, hk, hw, hn, hp =>
    Stub.Gives.left x path t b b' h.2 hk hw (by omega) (by rcases hp with h | h <;> simp [Front, h])
  | .later _ v _ more, path, outer, t, b, b', h, hk, hw, hn, hp => by
    obtain ⟨b1, h1, h2⟩ := h
    obtain ⟨hk1, hk2⟩ := hk
    obtain ⟨b2, e, h3, h4⟩ := Val.scan_idt R v path b (Val.fit_of_idt v _ _ _ h1) hk1 hw (by omega) (by rcases hp with h | h <;> simp [Front, h])
    rw [h1] at e
    injection e with e
    subst e
    have hm : b1.seqpos = .inMiddle := by
      rcases h4 with ha | ⟨ha, _⟩
      · exact ha
      · rcases hp with h | h <;> rw [h] at ha <;> cases ha
    obtain ⟨h5, h6⟩ := StubMore.Gives.left more path outer t b1 b' h2 hk2 (by rw [h3]) hn hm
    refine ⟨h5, h6.after h3 fun y => ?_⟩
    simp [StubItems.copy]
theorem StubMore.Gives.left : ∀ (more : StubMore) (path outer : List Bytes) (t : Bytes) (b b' : Idt),
    more.Gives idtH (idtE strict) R path outer t b b' → more.Keys Usual → b.w.plan = [] → 2 ≤ path.length →
    b.seqpos = .inMiddle → more.Open ∧ Left strict b t more.copy b'
  | .nothing, path, outer, t, b, b', h, _, hw, _, _ => by
    rw [show b' = b from h]
    exact ⟨trivial, .stay hw rfl⟩
  | .closed, path, outer, t, b, b', h, _, hw, _, _ => absurd h (idtH_endFails hw)
  | .comma is, path, outer, t, b, b', h, hk, hw, hn, hp => by
    have := StubItems.Gives.left is path outer t b b' h hk hw hn (.inr hp)
    rw [hp, sep, if_neg (by omega)] at this
    exact this
theorem StubMembers.Gives.left : ∀ (ms : StubMembers) (path : List Bytes) (t : Bytes) (b b' : Idt),
    ms.Gives idtH (idtE strict) R path t b b' → ms.Keys Usual → b.w.plan = [] → 1 ≤ path.length → Front b.seqpos →
    ms.Open ∧ Left strict b t (fun y => ms.copy y (sepMember b.seqpos)) b'
  | .closed, path, t, b, b', h, _, hw, _, _ => absurd h (idtH_endFails hw)
  | .key _ _ _, path, t, b, b', h, _, hw, _, _ => by have := (h.2 hw).1; cases this
  | .here _ k _ _ x, path, t, b, b', h, hk, hw, hn, _ => by
    obtain ⟨_, b1, h1, h2⟩ := h
    obtain ⟨hk1, hk2⟩ := hk
    have := h1 (.atom [])
    rw [idtH_key hw hk1] at this
    simp only [Prod.mk.injEq, and_true] at this
    subst this
    obtain ⟨h3, h4⟩ := Stub.Gives.left x (k :: path) t _ b' h2 hk2 (by rw [Idt.keyed_w]) (by simp) (.inr (.inr rfl))
    refine ⟨h3, h4.after (Idt.keyed_w b k) fun y => ?_⟩
    simp [StubMembers.copy, Idt.keyed, sep]
  | .ended _ k _ _ v, path, t, b, b', h, hk, hw, hn, _ => by
    obtain ⟨_, b1, h1, h2⟩ := h
    obtain ⟨hk1, hk2⟩ := hk
    simp only [Handler.around, idtH_key hw hk1] at h1
    obtain ⟨b2, e, h3, h4⟩ := Val.scan_idt R v (k :: path) (b.keyed k) (Val.fit_of_idt v _ _ _ h1) hk2 (by rw [Idt.keyed_w]) (by simp) (.inr (.inr rfl))
    rw [h1] at e
    injection e with e
    subst e
    exact absurd h2 (idtH_endFails (by rw [h3]))
  | .later _ k _ _ v _ more, path, t, b, b', h, hk, hw, hn, _ => by
    obtain ⟨_, b1, b2, h1, h2, h3⟩ := h
    obtain ⟨hk1, hk2, hk3⟩ := hk
    simp only [Handler.around, idtH_key hw hk1] at h1
    obtain ⟨b3, e, h4, h5⟩ := Val.scan_idt R v (k :: path) (b.keyed k) (Val.fit_of_idt v _ _ _ h1) hk2 (by rw [Idt.keyed_w]) (by simp) (.inr (.inr rfl))
    rw [h1] at e
    injection e with e
    subst e
    obtain ⟨b4, e, h6, h7⟩ := back_key (b := b1) (by rw [h4]) (k :: path) h5.back
    rw [h2] at e
    injection e with e
    subst e
    obtain ⟨h8, h9⟩ := StubRest.Gives.left more path t b2 b' h3 hk3 (by rw [h6]) hn h7
    refine ⟨h8, (h9.after (x' := fun y => v.strip.text ++ more.copy y) (b := b.keyed k) (z := v.strip.text) ?_ fun y => rfl).after
      (Idt.keyed_w b k) fun y => ?_⟩
    · rw [h6, h4]
      simp [Idt.keyed, sep]
    · simp [StubMembers.copy]
theorem StubRest.Gives.left : ∀ (more : StubRest) (path : List Bytes) (t : Bytes) (b b' : Idt),
    more.Gives idtH (idtE strict) R path t b b' → more.Keys Usual → b.w.plan = [] → 1 ≤ path.length → Back b.seqpos →
    more.Open ∧ Left strict b t more.copy b'
  | .nothing, path, t, b, b', h, _, hw, _, _ => by
    rw [show b' = b from h]
    exact ⟨trivial, .stay hw rfl⟩
  | .closed, path, t, b, b', h, _, hw, _, _ => absurd h (idtH_endFails hw)
  | .comma ms, path, t, b, b', h, hk, hw, hn, hp => by
    have := StubMembers.Gives.left ms path t b b' h hk hw hn (.inr hp)
    rw [sepMember, if_neg (by rcases hp with h | h <;> rw [h] <;> decide)] at this
    exact this
end
end

/-! ## C90 -/

/-- **C90, partial.** Full statement: without the restriction on the keys. It is false, see `C38_top_key`. Proved, for any input in any
chunks, with a reader that may fail, a buffer of at least eight bytes and a writer that does not fail: if `idtransform` returns an
error, then the input starts with space and the beginning `x` of a loose document, and what was written is this
beginning without the space between its tokens, each comma written with the element behind it. If the stop is at an atom, the
beginning of it that is in the output (`y`) is what the input goes on with, and nothing at all if the atom is not a string. -/
theorem C90_output_partial (turns F : Nat) (R : Room) (l : List (Pos × Bytes)) (rj rj' : RJ) (w w' : Writer) (pool pool' : Pool) (e : SErr)
    (hu : Usable F rj) (hst : Holds pool R l) (hw : w.plan = []) (h : idtransform turns F rj w pool = ((rj', w', pool'), .err e)) :
    ∃ ws, ∃ x : Stub, ∃ t, rj.rest = ws ++ (x.lead ++ t) ∧ Blank ws ∧ x.Loose (Harmless rj) ∧ x.Faces t ∧
      (x.Keys Usual → x.Open ∧ ∃ y, Copied (Harmless rj) t y ∧ w' = ⟨w.out ++ x.copy y [], []⟩) := by
  obtain ⟨g, e1, e2⟩ := scan_same (guarded_sim_eq F) turns F ⟨[], true⟩ rj (.new w) (.new w) pool ⟨rfl, hw⟩
  unfold idtransform at h
  rcases hx : scan turns F (Idt.callbacks F) ⟨[], true⟩ ⟨rj, .new w, pool⟩ with ⟨⟨rj1, b1, p1⟩, r⟩
  rw [hx] at h e1 e2
  cases r with
  | err er =>
    simp only [Prod.mk.injEq] at h
    obtain ⟨⟨rfl, rfl, rfl⟩, _⟩ := h
    have hg : b1 = g := by
      rcases e2 with ⟨⟨h, _⟩, _⟩ | ⟨_, _, h⟩
      · exact h
      · exact h
    subst hg
    have hp := scan_part (guarded_sees_all F ⟨Harmless rj, rj.b.buf.length⟩) rfl turns (st := ⟨rj, .new w, pool⟩) ⟨hu, id, rfl⟩ hst e1 (by simp) (by simp)
    obtain ⟨ds, b0, x, t, b2, h1, h2, h3, _, h4, _, h5, h6⟩ := hp.broken_stop
    obtain rfl := h2 rfl
    simp only [Docs.scan, Out.done.injEq] at h5
    subst h5
    refine ⟨b0, x, t, h1, h3, h4, Stub.Gives.faces x _ _ _ _ h6, fun hk => ?_⟩
    exact Stub.Gives.left x _ _ _ _ h6 hk hw (by simp) (.inl rfl)
  | ok u => simp at h
  | panic => simp at h
  | diverge => simp at h

/-! ### Example and false part -/

/-- ` [{ "k": 1 } , "abcdefgh`, in two chunks, and no closing quote. -/
def exOpen : RJ :=
  .new [.data 32 [91, 123, 32, 34, 107, 34, 58, 32], .data 49 [32, 125, 32, 44, 32, 34, 97, 98, 99, 100, 101, 102, 103, 104]] (List.replicate 16 0)

/-- What is in front of the string. -/
def exOpenStub : Stub :=
  .arr [] (.later [] (.obj [32] (.cons [] [107] [] [32] (.atom [49]) [32] .nil)) [32] (.comma (.here [32] (.begun .atom))))

example : Usable 100 exOpen ∧ Holds exPool exRoom [] ∧ Harmless exOpen ∧
    (∃ rj w p, idtransform 60 100 exOpen ⟨[], []⟩ exPool = ((rj, w, p), .err (.rjiter ⟨.json .eofWhileParsingString, 37⟩)) ∧
      w.out = exOpenStub.copy [34, 97, 98, 99, 100, 101, 102, 103] []) ∧
    exOpenStub.Keys Usual ∧ exOpenStub.Open ∧ exOpen.rest = [32] ++ (exOpenStub.lead ++ [34, 97, 98, 99, 100, 101, 102, 103, 104]) ∧
    exOpenStub.copy [34, 97, 98, 99, 100, 101, 102, 103] [] = "[{\"k\":1},\"abcdefg".toUTF8.toList :=
  ⟨usable_new _ _ _ (by decide) (by decide), exPool_holds, .inr (by decide),
    ⟨(idtransform 60 100 exOpen ⟨[], []⟩ exPool).1.1, (idtransform 60 100 exOpen ⟨[], []⟩ exPool).1.2.1,
      (idtransform 60 100 exOpen ⟨[], []⟩ exPool).1.2.2, by decide +kernel, by decide +kernel⟩,
    ⟨⟨by constructor <;> decide +kernel, trivial, trivial⟩, trivial⟩, trivial, by decide +kernel, by decide +kernel⟩

/-- **C90, the false part.** The key `#top` is lost: of `{"a":1,"#top":2 x` the output is `{"a":12`. -/
theorem C90_top_key : ∃ rj : RJ, Usable 100 rj ∧ Harmless rj ∧ rj.rest = "{\"a\":1,\"#top\":2 x".toUTF8.toList ∧
    (idtransform 60 100 rj ⟨[], []⟩ exPool).1.2.1.out = "{\"a\":12".toUTF8.toList ∧
    (idtransform 60 100 rj ⟨[], []⟩ exPool).2 = .err (.rjiter ⟨.json .expectedObjectCommaOrEnd, 16⟩) := by
  refine ⟨.new [.data 123 [34, 97, 34, 58, 49, 44, 34, 35, 116, 111, 112, 34, 58, 50, 32, 120]] (List.replicate 40 0),
    usable_new _ _ _ (by decide) (by decide), .inr (by decide), by decide +kernel, by decide +kernel, by decide +kernel⟩

end Verif.Scan
