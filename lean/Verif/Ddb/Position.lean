import Verif.Scan.Position
import Verif.Ddb.NormalReturns
import Verif.Ddb.NormalFail
import Verif.Ddb.Fail

/-!
# Where the parser is in the actions of the converters
-/

namespace Verif.Ddb

open Verif.U8Pool (Pool)
open Verif.RJiter (RJ Err Res Reader Writer oneByOne Off enoughFuel JFn Within)
open Verif.Scan

variable {F : Nat} {β : Type}

/-- What an action may do to the parser. -/
abbrev Kept (s : RJ) (x : (RJ × β) × Acted) : Prop := KeepsTo (fun _ => True) s x

/-- A result of an action whose parser is here. -/
theorem kept_here {s s' : RJ} (h : s.Near s') (hs : s'.Sync) (b : β) (r : Acted) : Kept s ((s', b), r) := by
  rcases r with (_ | _ | m) | _ | _
  · exact ⟨⟨h, hs⟩, trivial⟩
  · exact ⟨⟨h, hs⟩, trivial⟩
  · exact h.index
  · trivial
  · trivial

theorem kept_error {s s' : RJ} (h : s.Near s') (b : β) (m : String) : Kept s ((s', b), .op (.error m)) := h.index

/-- Later. -/
theorem Kept.from {s0 s : RJ} {x : (RJ × β) × Acted} (h0 : s0.Near s) (h : Kept s x) : Kept s0 x := by
  rcases x with ⟨⟨s', b⟩, (_ | _ | m) | _ | _⟩
  · exact ⟨⟨h0.trans h.1.1, h.1.2⟩, trivial⟩
  · exact ⟨⟨h0.trans h.1.1, h.1.2⟩, trivial⟩
  · have h1 := h0.index; have h2 := h0.stop
    simp only [Kept, KeepsTo] at h ⊢
    omega
  · trivial
  · trivial

theorem Usable.near {s s' : RJ} (h : Usable F s) (hn : s.Near s') (hs : s'.Sync) : Usable F s' :=
  ⟨hs, by rw [hn.loose.buf]; exact h.len, by have := hn.loose.size; have := h.fuel; unfold enoughFuel at *; omega⟩

/-- A parser call that takes no structural character. -/
theorem call_near {α : Type} {f : JFn α} {eager : Bool} (hs : RJ.JSound f none) (hw : Within f) {s s' : RJ} {r : Res α} (hu : Usable F s)
    (hcl : s.b.reader.Clean) (hr : s.loopUntilSuccess F f none eager = (s', r)) (hok : RJ.Runs 0 s (s', r)) :
    r = .panic ∨ r = .diverge ∨ s.Near s' ∧ s'.Sync := by
  rcases r with v | e | _ | _
  · obtain ⟨n, _, hm⟩ := hok
    exact .inr (.inr ⟨.ofMoved hm, hm.sync⟩)
  · rcases RJ.loopUntilSuccess_errs hs hw hu.sync (by have := hu.len; omega) hu.fuel hr with ⟨n, hm⟩ | ⟨h4, _⟩
    · exact .inr (.inr ⟨.ofMoved hm, hm.sync⟩)
    · exact absurd hcl h4
  · exact .inl rfl
  · exact .inr (.inl rfl)

theorem peek_near {s s' : RJ} {r : Res Byte} (hu : Usable F s) (hcl : s.b.reader.Clean) (hr : s.peek F = (s', r)) :
    r = .panic ∨ r = .diverge ∨ s.Near s' ∧ s'.Sync :=
  call_near RJiter.peek_jsound RJ.peek_within hu hcl hr (by rw [← hr]; exact RJ.peek_runs hu.sync (by have := hu.len; omega) hu.fuel)

theorem runs_weaken {α : Type} {s : RJ} {x : RJ × Res α} (h : RJ.Runs 1 s x) : RJ.Runs 0 s x := by
  rcases x with ⟨s', v | e | _ | _⟩
  · obtain ⟨n, _, hm⟩ := h; exact ⟨n, Nat.zero_le _, hm⟩
  · trivial
  · exact h
  · exact h

theorem knownBool_near {s s' : RJ} {c : Byte} {r : Res Bool} (hu : Usable F s) (hcl : s.b.reader.Clean) (hr : s.knownBool F c = (s', r)) :
    r = .panic ∨ r = .diverge ∨ s.Near s' ∧ s'.Sync :=
  call_near (RJiter.PrefixFn.jsound (RJiter.Jiter.knownBool_prefix c)) (knownBool_within c) hu hcl hr
    (by rw [← hr]; exact runs_weaken (RJ.knownBool_runs c hu.sync (by have := hu.len; omega) hu.fuel))

theorem knownNull_near {s s' : RJ} {r : Res Unit} (hu : Usable F s) (hcl : s.b.reader.Clean) (hr : s.knownNull F = (s', r)) :
    r = .panic ∨ r = .diverge ∨ s.Near s' ∧ s'.Sync :=
  call_near (RJiter.PrefixFn.jsound RJiter.Jiter.knownNull_prefix) knownNull_within hu hcl hr
    (by rw [← hr]; exact runs_weaken (RJ.knownNull_runs hu.sync (by have := hu.len; omega) hu.fuel))

theorem number_near {s s' : RJ} {r : Res Bytes} (hu : Usable F s) (hcl : s.b.reader.Clean) (hr : s.nextNumberBytes F = (s', r)) :
    r = .panic ∨ r = .diverge ∨ s.Near s' ∧ s'.Sync :=
  call_near RJiter.nextNumber_jsound nextNumber_within hu hcl hr
    (by rw [← hr]; exact runs_weaken (RJ.nextNumberBytes_runs hu.sync (by have := hu.len; omega) hu.fuel))

theorem string_near {s s' : RJ} {w w' : Writer} {r : Res Unit} (hu : Usable F s) (hr : s.writeLongBytes F w = ((s', w'), r)) :
    r = .panic ∨ r = .diverge ∨ (∃ e, r = .err e) ∧ s.Near s' ∨ r = .ok () ∧ s.Near s' ∧ s'.Sync := by
  have := RJ.handleLong_runs .raw w hu.sync hu.len hu.fuel
  rw [RJ.writeLongBytes] at hr
  rw [hr] at this
  rcases r with v | e | _ | _
  · obtain ⟨n, _, hm⟩ := this
    exact .inr (.inr (.inr ⟨rfl, .ofMoved hm, hm.sync⟩))
  · exact .inr (.inr (.inl ⟨⟨e, rfl⟩, RJiter.handleLong_near hu.sync hr⟩))
  · exact .inl rfl
  · exact .inr (.inl rfl)

namespace ToNormal

theorem kept_act (f : ToNormal → Step) (op : StreamOp) {s0 s : RJ} (h : s0.Near s) (hs : s.Sync) (b : ToNormal) : Kept s0 (act f op s b) := by
  unfold act Step.run
  rcases f b with ⟨b', _ | m⟩
  · exact kept_here h hs _ _
  · exact kept_error h _ _

theorem kept_run (x : Step) {s0 s : RJ} {k : Action ToNormal} (h : s0.Near s) (hk : ∀ b, Kept s0 (k s b)) : Kept s0 (x.run s k) := by
  unfold Step.run
  rcases x with ⟨b, _ | m⟩
  · exact hk b
  · exact kept_error h _ _

theorem kept_settle (f : ToNormal → ToNormal) {s : RJ} {x : (RJ × ToNormal) × Acted} (h : Kept s x) : Kept s (settle f x) := by
  rcases x with ⟨⟨s', b⟩, (_ | _ | m) | _ | _⟩ <;> exact h

theorem kept_writeString {s : RJ} (hu : Usable F s) (hcl : s.b.reader.Clean) (quotes : Bool) (pc wc : String) (b : ToNormal) :
    Kept s (writeString F quotes pc wc s b) := by
  unfold writeString
  rcases hp : s.peek F with ⟨s1, r⟩
  rcases peek_near hu hcl hp with rfl | rfl | ⟨hn, hs⟩
  · trivial
  · trivial
  have hu1 := Usable.near hu hn hs
  rcases r with c | e | _ | _
  · simp only
    split
    · exact kept_error hn _ _
    · refine kept_run _ hn fun b1 => ?_
      rcases hw : s1.writeLongBytes F b1.d.w with ⟨⟨s2, w⟩, r⟩
      rcases string_near hu1 hw with rfl | rfl | ⟨⟨e, rfl⟩, h2⟩ | ⟨rfl, h2, h3⟩
      · trivial
      · trivial
      · exact kept_error (hn.trans h2) _ _
      · exact kept_act _ _ (hn.trans h2) h3 _
  · exact kept_error hn _ _
  · trivial
  · trivial

theorem kept_writeBool {s : RJ} (hu : Usable F s) (hcl : s.b.reader.Clean) (output : Byte → Bytes × Option String) (name : String) (b : ToNormal) :
    Kept s (writeBool F output name s b) := by
  unfold writeBool
  rcases hp : s.peek F with ⟨s1, r⟩
  rcases peek_near hu hcl hp with rfl | rfl | ⟨hn, hs⟩
  · trivial
  · trivial
  have hu1 := Usable.near hu hn hs
  rcases r with c | e | _ | _
  · simp only
    rcases output c with ⟨bytes, _ | m⟩
    · refine kept_run _ hn fun b1 => ?_
      rcases hk : s1.knownBool F c with ⟨s2, r⟩
      rcases knownBool_near hu1 (hn.loose.clean hcl) hk with rfl | rfl | ⟨h2, h3⟩
      · trivial
      · trivial
      rcases r with v | e | _ | _
      · exact kept_act _ _ (hn.trans h2) h3 _
      · exact kept_error (hn.trans h2) _ _
      · trivial
      · trivial
    · exact kept_error hn _ _
  · exact kept_error hn _ _
  · trivial
  · trivial

theorem near_refl {s : RJ} (h : s.Sync) : s.Near s := .ofMoved (.refl h)

theorem kept_onTypeKey {s : RJ} (hu : Usable F s) (hcl : s.b.reader.Clean) (b : ToNormal) : Kept s (onTypeKey F s b) := by
  have hr := near_refl hu.sync
  unfold onTypeKey
  cases b.field with
  | none => exact kept_error hr _ _
  | some key =>
    simp only
    split
    · exact kept_settle _ (kept_writeString hu hcl _ _ _ _)
    split
    · exact kept_settle _ (kept_writeString hu hcl _ _ _ _)
    split
    · exact kept_settle _ (kept_writeBool hu hcl _ _ _)
    split
    · exact kept_settle _ (kept_writeBool hu hcl _ _ _)
    split
    · exact kept_act _ _ hr hu.sync _
    split
    · exact kept_act _ _ hr hu.sync _
    split
    · exact kept_act _ _ hr hu.sync _
    split
    · exact kept_act _ _ hr hu.sync _
    · exact kept_error hr _ _

theorem kept_find {s : RJ} (hu : Usable F s) (hcl : s.b.reader.Clean) (p : Pseudo) (c : Ctx) (b b' : ToNormal) (a : Action ToNormal)
    (h : find F p c b = (b', some a)) : Kept s (a s b') := by
  have hr := near_refl hu.sync
  have hrej : ∀ c, reject c b = (b', some a) → Kept s (a s b') := by
    intro c hc
    simp only [reject, Prod.mk.injEq, Option.some.injEq] at hc
    rw [← hc.2]; exact kept_error hr _ _
  have hact : ∀ (f : ToNormal → Step) (b1 : ToNormal), (b1, some (act f .none)) = (b', some a) → Kept s (a s b') := by
    intro f b1 hc
    simp only [Prod.mk.injEq, Option.some.injEq] at hc
    rw [← hc.2]; exact kept_act _ _ hr hu.sync _
  have hkey : ∀ (b1 : ToNormal), (b1, some (onTypeKey F)) = (b', some a) → Kept s (a s b') := by
    intro b1 hc
    simp only [Prod.mk.injEq, Option.some.injEq] at hc
    rw [← hc.2]; exact kept_onTypeKey hu hcl _
  have hno : ∀ (b1 : ToNormal), (b1, none) = (b', some a) → Kept s (a s b') := by
    intro b1 hc; simp at hc
  cases p with
  | object =>
    simp only [find, findObject] at h
    repeat' split at h
    all_goals first | exact hno _ h | exact hrej _ h | exact hact _ _ h
  | none =>
    simp only [find, findKey] at h
    repeat' split at h
    all_goals first | exact hno _ h | exact hrej _ h | exact hact _ _ h | exact hkey _ h
  | array =>
    simp only [find, findArray] at h
    repeat' split at h
    all_goals first | exact hno _ h | exact hrej _ h
  | atom =>
    simp only [find, findAtom] at h
    split at h
    · exact hrej _ h
    · split at h
      · simp only [Prod.mk.injEq, Option.some.injEq] at h
        rw [← h.2]
        split <;> exact kept_writeString hu hcl _ _ _ _
      · exact hrej _ h

/-- An error is stored only by the rejection that ends the scan. -/
theorem find_stored (p : Pseudo) (c : Ctx) (b : ToNormal) :
    (find F p c b).1.lastError = b.lastError ∨ (find F p c b).2 = some onError := by
  cases p with
  | object =>
    simp only [find, findObject]
    repeat' split
    all_goals first | exact .inl rfl | exact .inr rfl
  | none =>
    simp only [find, findKey]
    repeat' split
    all_goals first | exact .inl rfl | exact .inr rfl
  | array =>
    simp only [find, findArray]
    repeat' split
    all_goals first | exact .inl rfl | exact .inr rfl
  | atom =>
    simp only [find, findAtom]
    repeat' split
    all_goals first | exact .inl rfl | exact .inr rfl

/-- The converter's actions keep to the input, and no error is stored as long as the scan goes on. -/
theorem steady (F : Nat) : Steady (callbacks F) F (fun b => b.lastError = none) := by
  constructor
  · intro p c b s hk hu hcl
    have hfound := find_found (d := b.d) F p c (b := b) ⟨Kinds.refl _, by intro k c; simp [hk]⟩
    have hst := find_stored (F := F) p c b
    have hkept := fun b' a => kept_find hu hcl p c b b' a
    simp only [show (callbacks F).find p c b = find F p c b from rfl]
    rcases hf : find F p c b with ⟨b', _ | a⟩
    · rw [hf] at hst
      rcases hst with h | h
      · exact h.trans hk
      · cases h
    · have h1 := hkept b' a hf
      have h2 := hfound.2 a (by rw [hf]) s
      rw [hf] at hst h2
      simp only at hst h2 ⊢
      rcases hst with h | h
      · revert h1 h2
        rcases a s b' with ⟨⟨s', b''⟩, (_ | _ | m) | _ | _⟩
        · intro h1 h2; exact ⟨h1.1, h2.2.trans (h.trans hk)⟩
        · intro h1 h2; exact ⟨h1.1, h2.2.trans (h.trans hk)⟩
        · intro h1 _; exact h1
        · intro _ _; trivial
        · intro _ _; trivial
      · injection h with h
        subst h
        exact (near_refl hu.sync).index
  · intro p c b hk
    obtain ⟨h1, h2⟩ := findEnd_fine p c b
    simp only [show (callbacks F).findEnd p c b = findEnd p c b from rfl]
    rcases hf : findEnd p c b with ⟨b', _ | a⟩
    · rw [hf] at h1; simp only at h1 ⊢; rw [h1]; exact hk
    · have := h2 a (by rw [hf]) b
      rw [hf] at h1; simp only at h1; subst h1
      simp only
      revert this
      rcases a b' with ⟨b2, _ | m⟩
      · intro h _; exact h.2.trans hk
      · intro _ h; cases h

end ToNormal

namespace ToDdb

theorem kept_act (f : ToDdb → Step) (op : StreamOp) {s0 s : RJ} (h : s0.Near s) (hs : s.Sync) (b : ToDdb) : Kept s0 (act f op s b) := by
  unfold act Step.run
  rcases f b with ⟨b', _ | m⟩
  · exact kept_here h hs _ _
  · exact kept_error h _ _

theorem kept_run (x : Step) {s0 s : RJ} {k : Action ToDdb} (h : s0.Near s) (hk : ∀ b, Kept s0 (k s b)) : Kept s0 (x.run s k) := by
  unfold Step.run
  rcases x with ⟨b, _ | m⟩
  · exact hk b
  · exact kept_error h _ _

theorem kept_ignoring {α : Type} (b : ToDdb) (f : ToDdb → Step) (op : StreamOp) {s0 s : RJ} {r : Res α}
    (h : r = .panic ∨ r = .diverge ∨ s0.Near s ∧ s.Sync) : Kept s0 (ignoring b (act f op) (s, r)) := by
  rcases h with rfl | rfl | ⟨h1, h2⟩
  · trivial
  · trivial
  · rcases r with v | e | _ | _
    · exact kept_act _ _ h1 h2 _
    · exact kept_act _ _ h1 h2 _
    · trivial
    · trivial

theorem kept_onString {s : RJ} (hu : Usable F s) (b : ToDdb) : Kept s (onString F s b) := by
  unfold onString
  refine kept_run _ (ToNormal.near_refl hu.sync) fun b1 => ?_
  rcases hw : s.writeLongBytes F b1.d.w with ⟨⟨s2, w⟩, r⟩
  rcases string_near hu hw with rfl | rfl | ⟨⟨e, rfl⟩, h2⟩ | ⟨rfl, h2, h3⟩
  · trivial
  · trivial
  · exact kept_error h2 _ _
  · exact kept_act _ _ h2 h3 _

theorem later {α : Type} {s0 s1 s2 : RJ} {r : Res α} (h0 : s0.Near s1) (h : r = .panic ∨ r = .diverge ∨ s1.Near s2 ∧ s2.Sync) :
    r = .panic ∨ r = .diverge ∨ s0.Near s2 ∧ s2.Sync := h.imp_right fun h => h.imp_right fun h => ⟨h0.trans h.1, h.2⟩

theorem kept_onBool {s : RJ} (hu : Usable F s) (hcl : s.b.reader.Clean) (b : ToDdb) : Kept s (onBool F s b) := by
  unfold onBool
  rcases hp : s.peek F with ⟨s1, r⟩
  rcases peek_near hu hcl hp with rfl | rfl | ⟨hn, hs⟩
  · trivial
  · trivial
  have hu1 := Usable.near hu hn hs
  rcases r with c | e | _ | _
  · refine kept_run _ hn fun b1 => ?_
    rcases hk : s1.knownBool F c with ⟨s2, r⟩
    have := later hn (knownBool_near hu1 (hn.loose.clean hcl) hk)
    split
    · exact kept_ignoring _ _ _ this
    · split
      · exact kept_ignoring _ _ _ this
      · exact kept_error hn _ _
  · exact kept_error hn _ _
  · trivial
  · trivial

theorem kept_onNull {s : RJ} (hu : Usable F s) (hcl : s.b.reader.Clean) (b : ToDdb) : Kept s (onNull F s b) := by
  unfold onNull
  rcases hp : s.peek F with ⟨s1, r⟩
  rcases peek_near hu hcl hp with rfl | rfl | ⟨hn, hs⟩
  · trivial
  · trivial
  have hu1 := Usable.near hu hn hs
  rcases r with c | e | _ | _
  · simp only
    rcases hk : s1.knownNull F with ⟨s2, r⟩
    have := later hn (knownNull_near hu1 (hn.loose.clean hcl) hk)
    split
    · exact kept_error hn _ _
    · exact kept_ignoring _ _ _ this
  · exact kept_error hn _ _
  · trivial
  · trivial

theorem kept_onNumber {s : RJ} (hu : Usable F s) (hcl : s.b.reader.Clean) (b : ToDdb) : Kept s (onNumber F s b) := by
  unfold onNumber
  rcases hp : s.nextNumberBytes F with ⟨s1, r⟩
  rcases number_near hu hcl hp with rfl | rfl | ⟨hn, hs⟩
  · trivial
  · trivial
  rcases r with c | e | _ | _
  · exact kept_act _ _ hn hs _
  · exact kept_error hn _ _
  · trivial
  · trivial

theorem kept_onAtom {s : RJ} (hu : Usable F s) (hcl : s.b.reader.Clean) (b : ToDdb) : Kept s (onAtom F s b) := by
  unfold onAtom
  refine kept_run _ (ToNormal.near_refl hu.sync) fun b1 => ?_
  rcases hp : s.peek F with ⟨s1, r⟩
  rcases peek_near hu hcl hp with rfl | rfl | ⟨hn, hs⟩
  · trivial
  · trivial
  have hu1 := Usable.near hu hn hs
  have hc1 := hn.loose.clean hcl
  rcases r with c | e | _ | _
  · simp only
    split
    · exact Kept.from hn (kept_onString hu1 _)
    split
    · exact Kept.from hn (kept_onBool hu1 hc1 _)
    split
    · exact Kept.from hn (kept_onNull hu1 hc1 _)
    · exact Kept.from hn (kept_onNumber hu1 hc1 _)
  · exact kept_error hn _ _
  · trivial
  · trivial

theorem kept_onRootLiteral {s : RJ} (hu : Usable F s) (hcl : s.b.reader.Clean) (b : ToDdb) : Kept s (onRootLiteral F s b) := by
  unfold onRootLiteral
  refine kept_run _ (ToNormal.near_refl hu.sync) fun b1 => ?_
  have := kept_onAtom hu hcl b1
  revert this
  rcases onAtom F s b1 with ⟨⟨s', b2⟩, (_ | _ | m) | _ | _⟩
  · intro h; exact kept_act _ _ h.1.1 h.1.2 _
  · intro h; exact kept_act _ _ h.1.1 h.1.2 _
  · intro h
    simp only [act, Step.run]
    rcases ((b2.put [10] "writing final newline").bind (setComma false)) with ⟨b3, _ | m⟩ <;> exact h
  · intro _; trivial
  · intro _; trivial

theorem kept_find {s : RJ} (hu : Usable F s) (hcl : s.b.reader.Clean) (p : Pseudo) (c : Ctx) (b b' : ToDdb) (a : Action ToDdb)
    (h : find F p c b = (b', some a)) : Kept s (a s b') := by
  have hr := ToNormal.near_refl hu.sync
  have ha := fun f op (b : ToDdb) => kept_act f op hr hu.sync b
  have he := fun b : ToDdb => show Kept s (onElementAtom F s b) from kept_run _ hr fun b => kept_onAtom hu hcl b
  unfold find at h
  revert h
  rcases c.path with _ | ⟨parent, r⟩
  · intro h
    cases p <;> simp only [Prod.mk.injEq, Option.some.injEq, reduceCtorEq, and_false] at h <;> obtain ⟨rfl, rfl⟩ := h
    · exact ha _ _ _
    · exact kept_onAtom hu hcl _
  · intro h
    simp only at h
    split at h
    · cases p <;> simp only [Prod.mk.injEq, Option.some.injEq, reduceCtorEq, and_false] at h <;> obtain ⟨rfl, rfl⟩ := h
      · exact ha _ _ _
      · exact ha _ _ _
      · exact kept_onRootLiteral hu hcl _
    · cases p <;> simp only [Prod.mk.injEq, Option.some.injEq, reduceCtorEq, and_false] at h <;> obtain ⟨rfl, rfl⟩ := h
      · split <;> exact ha _ _ _
      · split <;> exact ha _ _ _
      · split
        · exact he _
        · exact kept_onAtom hu hcl _
      · exact ha _ _ _

/-- The converter's actions keep to the input, and no error is stored as long as the scan goes on. -/
theorem steady (F : Nat) : Steady (callbacks F) F (fun b => b.lastError = none) := by
  constructor
  · intro p c b s hk hu hcl
    obtain ⟨_, h2, h3⟩ := find_acted F p c b
    have hkept := fun b' a => kept_find hu hcl p c b b' a
    simp only [show (callbacks F).find p c b = find F p c b from rfl]
    rcases hf : find F p c b with ⟨b', _ | a⟩
    · rw [hf] at h2
      exact h2.trans hk
    · have h1 := hkept b' a hf
      have h4 := h3 a (by rw [hf]) s
      rw [hf] at h2 h4
      simp only at h2 h4 ⊢
      revert h1 h4
      rcases a s b' with ⟨⟨s', b''⟩, (_ | _ | m) | _ | _⟩
      · intro h1 h4; exact ⟨h1.1, h4.2.trans (h2.trans hk)⟩
      · intro h1 h4; exact ⟨h1.1, h4.2.trans (h2.trans hk)⟩
      · intro h1 _; exact h1
      · intro _ _; trivial
      · intro _ _; trivial
  · intro p c b hk
    obtain ⟨h1, h2⟩ := findEnd_fine p c b
    simp only [show (callbacks F).findEnd p c b = findEnd p c b from rfl]
    rcases hf : findEnd p c b with ⟨b', _ | a⟩
    · rw [hf] at h1; simp only at h1 ⊢; rw [h1]; exact hk
    · have := h2 a (by rw [hf]) b
      rw [hf] at h1; simp only at h1; subst h1
      simp only
      revert this
      rcases a b' with ⟨b2, _ | m⟩
      · intro h _
        rcases h with ⟨_, _, h⟩ | ⟨_, _, _, h, _⟩
        · exact h.trans hk
        · cases h
      · intro _ h; cases h

end ToDdb

end Verif.Ddb
