import Verif.Scan.IdtPart
import Verif.Scan.UniqueProps
import Verif.Scan.AgainProps

/-!
# A part of a text of JSON documents has one reading, too

What `scan` has read of the beginning of a JSON document (`Stub`) is what is there.
-/

namespace Verif.Scan

open Verif.RJiter
open Verif.RJiter.Jiter

/-! ## Tokens -/

theorem space_split : ∀ {a b x y : Bytes} {c d : Byte}, Blank a → Spaces b → Solid c → ¬ Space d → a ++ d :: x = b ++ c :: y →
    a = b ∧ d = c ∧ x = y
  | [], [], _, _, _, _, _, _, _, _, h => by injection h with h1 h2; exact ⟨rfl, h1, h2⟩
  | [], e :: b, _, _, _, d, _, hb, _, hd, h => by
    injection h with h1 _
    exact absurd (h1 ▸ hb e (by simp)) hd
  | e :: a, [], _, _, c, _, ha, _, hc, _, h => by
    injection h with h1 _
    exact absurd (h1 ▸ ha e (by simp)) hc
  | e :: a, f :: b, _, _, _, _, ha, hb, hc, hd, h => by
    injection h with h1 h2
    obtain ⟨k1, k2, k3⟩ := space_split (fun c hc => ha c (by simp [hc])) (fun c hc => hb c (by simp [hc])) hc hd h2
    exact ⟨by rw [h1, k1], k2, k3⟩

theorem Spaces.app {a b : Bytes} (ha : Spaces a) (hb : Spaces b) : Spaces (a ++ b) := fun c hc =>
  (List.mem_append.mp hc).elim (ha c) (hb c)

/-- A byte of a number. -/
theorem number_byte {num : Bytes} (h : Number num) : ∀ c ∈ num, Solid c ∧ c ≠ 44 ∧ c ≠ 93 ∧ c ≠ 125 := by
  have hdig : ∀ c, Digit c → Solid c ∧ c ≠ 44 ∧ c ≠ 93 ∧ c ≠ 125 := by
    intro c hc
    have hne : ∀ n : Nat, n < 48 ∨ 57 < n → n < 256 → c ≠ UInt8.ofNat n := by
      rintro n hn hl rfl
      simp only [Digit, UInt8.toNat_ofNat'] at hc
      omega
    exact ⟨solid_of ⟨hne 32 (by decide) (by decide), hne 9 (by decide) (by decide), hne 10 (by decide) (by decide),
      hne 13 (by decide) (by decide), hne 12 (by decide) (by decide)⟩, hne 44 (by decide) (by decide), hne 93 (by decide) (by decide),
      hne 125 (by decide) (by decide)⟩
  have hall : ∀ {ds : Bytes}, Digits ds → ∀ c ∈ ds, Solid c ∧ c ≠ 44 ∧ c ≠ 93 ∧ c ≠ 125 := fun h c hc => hdig c (h.2 c hc)
  have hone : ∀ c : Byte, c = 45 ∨ c = 43 ∨ c = 46 ∨ c = 101 ∨ c = 69 ∨ c = 48 → Solid c ∧ c ≠ 44 ∧ c ≠ 93 ∧ c ≠ 125 := by
    rintro c (rfl | rfl | rfl | rfl | rfl | rfl) <;> exact ⟨solid_of (by decide), by decide, by decide, by decide⟩
  obtain ⟨m, i, f, e, rfl, hm, hi, hf, he⟩ := h
  intro c hc
  simp only [List.mem_append] at hc
  rcases hc with hc | hc | hc | hc
  · rcases hm with rfl | rfl
    · simp at hc
    · simp at hc; exact hone c (by simp [hc])
  · rcases hi with rfl | ⟨hi, _⟩
    · simp at hc; exact hone c (by simp [hc])
    · exact hall hi c hc
  · rcases hf with rfl | ⟨ds, rfl, h⟩
    · simp at hc
    · rcases List.mem_cons.mp hc with hc | hc
      · exact hone c (by simp [hc])
      · exact hall h c hc
  · rcases he with rfl | ⟨e, sg, ds, rfl, h1, h2, h3⟩
    · simp at hc
    · rcases List.mem_cons.mp hc with hc | hc
      · exact hone c (by rcases h1 with rfl | rfl <;> simp [hc])
      · rcases List.mem_append.mp hc with hc | hc
        · rcases h2 with rfl | rfl | rfl
          · simp at hc
          · simp at hc; exact hone c (by simp [hc])
          · simp at hc; exact hone c (by simp [hc])
        · exact hall h3 c hc

section
variable {num str : Bytes → Prop} {key : Bytes → Bytes → Prop} {head : Bytes → Bytes → Bytes → Bytes → Prop} {strict : Prop}

/-- `v'` is a number, and `v` is only a part of it; `x` is what follows `v`. -/
def Val.Cut (v v' : Val) (x : Bytes) : Prop :=
  ∃ tok d z u, v = .atom tok ∧ v' = .atom (tok ++ d :: z) ∧ x = d :: u ∧ Number tok ∧ Number (tok ++ d :: z)

/-- A value in front of which the same text is. -/
theorem Val.start {v v' : Val} {x x' : Bytes} (h' : v'.Meets (.json num str key head)) (h : v.Loose strict) (hs : strict)
    (hx : v'.Clear x') (e : v.text ++ x = v'.text ++ x') : (v.strip = v'.strip ∧ x = x') ∨ v.Cut v' x := by
  cases v with
  | arr => exact .inl (Val.unique _ _ h' h (.inl hs) hx trivial e.symm)
  | obj => exact .inl (Val.unique _ _ h' h (.inl hs) hx trivial e.symm)
  | atom tok =>
    by_cases hn : Number tok
    · cases v' with
      | arr => exact (number_not hn (by decide) e).elim
      | obj => exact (number_not hn (by decide) e).elim
      | atom tok' =>
        cases (show IsAtom num str tok' from h') with
        | null => exact (number_not hn (by decide) e).elim
        | true => exact (number_not hn (by decide) e).elim
        | false => exact (number_not hn (by decide) e).elim
        | string => exact (number_not hn (by decide) e).elim
        | number _ hn0 _ =>
          simp only [Val.text] at e
          rcases List.append_eq_append_iff.mp e with ⟨a, rfl, ha⟩ | ⟨a, rfl, ha⟩
          · cases a with
            | nil => simp at ha; subst ha; exact .inl ⟨by simp, rfl⟩
            | cons d a => exact .inr ⟨tok, d, a, a ++ x', rfl, rfl, ha, hn, hn0⟩
          · cases a with
            | nil => simp at ha; subst ha; exact .inl ⟨by simp, rfl⟩
            | cons d a =>
              exfalso
              have hends : EndsNumber (d :: a) := by
                intro c hc
                refine hx hn0 c ?_
                rw [ha]; exact hc
              have h1 := numberEnd_spec hn0 hends
              have h2 := numberEnd_spec hn (t := []) (by intro c hc; cases hc)
              rw [List.append_nil, h1] at h2
              injection h2 with h2
              simp at h2
    · exact .inl (Val.unique _ _ h' h (.inl hs) hx (fun h => absurd h hn) e.symm)

/-- What follows a part of a number. -/
theorem Val.Cut.blank {v v' : Val} {a x : Bytes} {c : Byte} (h : v.Cut v' (a ++ c :: x)) (ha : Blank a) (hc : c = 44 ∨ c = 93 ∨ c = 125) : False := by
  obtain ⟨tok, d, z, u, _, _, e, _, hn⟩ := h
  have hd := number_byte hn d (by simp)
  cases a with
  | nil =>
    injection e with e _
    subst e
    rcases hc with h | h | h
    · exact hd.2.1 h
    · exact hd.2.2.1 h
    · exact hd.2.2.2 h
  | cons f a =>
    injection e with e _
    subst e
    exact hd.1 (ha _ (by simp))

/-! ## Beginnings -/

theorem Stub.first : ∀ {x : Stub} {t u : Bytes}, x.Faces t → x ≠ .nothing →
    ∃ d r, x.lead ++ (t ++ u) = d :: r ∧ ¬ Space d ∧ (d = 93 → x = .begun .atom ∧ t.head? = some 93)
  | .nothing, _, _, _, h => absurd rfl h
  | .begun .array, t, u, ⟨r, e⟩, _ => ⟨91, r ++ u, by rw [e]; rfl, by unfold Space; decide, fun h => absurd h (by decide)⟩
  | .begun .object, t, u, ⟨r, e⟩, _ => ⟨123, r ++ u, by rw [e]; rfl, by unfold Space; decide, fun h => absurd h (by decide)⟩
  | .begun .atom, t, u, ⟨c, r, e, _, _, h⟩, _ => ⟨c, r ++ u, by rw [e]; rfl, h, fun h => ⟨rfl, by rw [e, h]; rfl⟩⟩
  | .begun .none, _, _, h, _ => h.elim
  | .arr w is, t, u, _, _ => ⟨91, w ++ is.lead ++ (t ++ u), rfl, by unfold Space; decide, fun h => absurd h (by decide)⟩
  | .obj w ms, t, u, _, _ => ⟨123, w ++ ms.lead ++ (t ++ u), rfl, by unfold Space; decide, fun h => absurd h (by decide)⟩

theorem Val.Meets.first {v : Val} (h : v.Meets (.json num str key head)) : ∃ c r, v.text = c :: r ∧ Start c ∧
    (c = 91 → ∃ w is, v = .arr w is) ∧ (c = 123 → ∃ w ms, v = .obj w ms) ∧ (c ≠ 91 → c ≠ 123 → ∃ tok, v = .atom tok) := by
  cases v with
  | atom tok =>
    cases (show IsAtom num str tok from h) with
    | number _ hn _ =>
      obtain ⟨c, t, e, hc, hs⟩ := Start.of_number hn
      refine ⟨c, t, e, hs, ?_, ?_, fun _ _ => ⟨_, rfl⟩⟩
      · rintro rfl; rcases hc with h | h <;> exact absurd h (by decide)
      · rintro rfl; rcases hc with h | h <;> exact absurd h (by decide)
    | null => exact ⟨_, _, rfl, ⟨solid_of (by decide), by decide, by decide, by decide, by decide⟩, fun h => absurd h (by decide), fun h => absurd h (by decide), fun _ _ => ⟨_, rfl⟩⟩
    | true => exact ⟨_, _, rfl, ⟨solid_of (by decide), by decide, by decide, by decide, by decide⟩, fun h => absurd h (by decide), fun h => absurd h (by decide), fun _ _ => ⟨_, rfl⟩⟩
    | false => exact ⟨_, _, rfl, ⟨solid_of (by decide), by decide, by decide, by decide, by decide⟩, fun h => absurd h (by decide), fun h => absurd h (by decide), fun _ _ => ⟨_, rfl⟩⟩
    | string => exact ⟨_, _, rfl, ⟨solid_of (by decide), by decide, by decide, by decide, by decide⟩, fun h => absurd h (by decide), fun h => absurd h (by decide), fun _ _ => ⟨_, rfl⟩⟩
  | arr w is => exact ⟨_, _, rfl, ⟨solid_of (by decide), by decide, by decide, by decide, by decide⟩, fun _ => ⟨_, _, rfl⟩, fun h => absurd h (by decide), fun h => absurd rfl h⟩
  | obj w ms => exact ⟨_, _, rfl, ⟨solid_of (by decide), by decide, by decide, by decide, by decide⟩, fun h => absurd h (by decide), fun _ => ⟨_, _, rfl⟩, fun _ h => absurd rfl h⟩

theorem copied_atom {tok t u y s : Bytes} (hv : (Val.atom tok).Meets (.json num str key head)) (hs : strict) (hy : Copied strict t y) (e : t ++ u = tok ++ s) : y <+: tok := by
  obtain ⟨a, c, rfl, ha, rfl | ⟨z, rfl, _, hz⟩⟩ := hy
  · exact List.nil_prefix
  · obtain ⟨d, r, ed, hd, _⟩ := hv.first
    obtain rfl : a = [] := by
      cases a with
      | nil => rfl
      | cons f a =>
        rw [show tok = d :: r from ed] at e
        injection e with e _
        exact absurd (e ▸ ha f (by simp)) hd.1
    simp only [List.nil_append, List.append_assoc, List.cons_append] at e
    cases (show IsAtom num str tok from hv) with
    | number _ hn _ => exact (number_not (x := s) (x' := z ++ (c ++ u)) (t := []) (c := 34) hn (by decide) e.symm).elim
    | null => simp at e
    | true => simp at e
    | false => simp at e
    | string body hb _ =>
      simp only [List.cons_append, List.cons.injEq, true_and, List.append_assoc] at e
      obtain ⟨z', hz'⟩ := (hz hs).start hb.tidy e
      rw [hz']
      exact ⟨z' ++ [34], by simp⟩

/-- `v` is `v'`, up to the space between its tokens, or a number that is the beginning of `v'`; what is left of the text of `v'` is at the
beginning of `x`. -/
def Val.Meant (v v' : Val) (x : Bytes) : Prop := v.strip = v'.strip ∨ v.Cut v' x

mutual
/-- `x` is a beginning of `v`. `t` is behind it, and with `u` it starts with what is left of `v`. -/
def Stub.Of (t u : Bytes) : Stub → Val → Prop
  | .nothing, _ => True
  | .begun p, v => p ≠ .none ∧ Starts p v ∧ ∃ s, v.Clear s ∧ t ++ u = v.text ++ s
  | .arr _ is, v => ∃ w js, v = .arr w js ∧ is.Of t u js
  | .obj _ ms, v => ∃ w js, v = .obj w js ∧ ms.Of t u js
@[inherit_doc Stub.Of]
def StubItems.Of (t u : Bytes) : StubItems → Items → Prop
  | .closed, js => js = .nil
  | .here _ x, js => x = .nothing ∨ ∃ b v a more, js = .cons b v a more ∧ x.Of t u v
  | .later _ v a more, js => ∃ b v' a' more', js = .cons b v' a' more' ∧
      (v.strip = v'.strip ∧ more.Of t u more' ∨ v.Cut v' (t ++ u) ∧ a = [] ∧ more = .nothing)
@[inherit_doc Stub.Of]
def StubMore.Of (t u : Bytes) : StubMore → Items → Prop
  | .nothing, _ => True
  | .closed, js => js = .nil
  | .comma is, js => js ≠ .nil ∧ is.Of t u js
@[inherit_doc Stub.Of]
def StubMembers.Of (t u : Bytes) : StubMembers → Members → Prop
  | .closed, js => js = .nil
  | .key _ k _, js => ∃ b m n v a more s, js = .cons b k m n v a more ∧ v.Clear s ∧ t ++ u = n ++ (v.text ++ s)
  | .here _ k _ _ x, js => ∃ b m n v a more, js = .cons b k m n v a more ∧ x.Of t u v
  | .ended _ k _ _ v, js => ∃ b m n v' a more, js = .cons b k m n v' a more ∧ v.Meant v' (t ++ u)
  | .later _ k _ _ v a more, js => ∃ b m n v' a' more', js = .cons b k m n v' a' more' ∧
      (v.strip = v'.strip ∧ more.Of t u more' ∨ v.Cut v' (t ++ u) ∧ a = [] ∧ more = .nothing)
@[inherit_doc Stub.Of]
def StubRest.Of (t u : Bytes) : StubRest → Members → Prop
  | .nothing, _ => True
  | .closed, js => js = .nil
  | .comma ms, js => js ≠ .nil ∧ ms.Of t u js
end

theorem Val.Cut.events {v v' : Val} {x : Bytes} (h : v.Cut v' x) (path : List Bytes) : v.events path = v'.events path := by
  obtain ⟨tok, d, z, u, rfl, rfl, _⟩ := h
  rfl

theorem Val.Cut.text {v v' : Val} {x : Bytes} (h : v.Cut v' x) : v.strip.text <+: v'.strip.text := by
  obtain ⟨tok, d, z, u, rfl, rfl, _⟩ := h
  exact List.prefix_append _ _

theorem Val.Cut.keys {v v' : Val} {x : Bytes} (h : v.Cut v' x) (P : Bytes → Prop) : v.Keys P := by
  obtain ⟨tok, d, z, u, rfl, rfl, _⟩ := h
  trivial

theorem Val.Cut.close {v v' : Val} {a x : Bytes} (h : v.Cut v' (a ++ x)) (ha : Blank a) : a = [] ∧ v.Cut v' x := by
  cases a with
  | nil => exact ⟨rfl, h⟩
  | cons c a =>
    obtain ⟨tok, d, z, u, _, _, e, _, hn⟩ := h
    injection e with e _
    exact absurd (e ▸ ha c (by simp)) (number_byte hn d (by simp)).1

theorem Val.Cut.more {v v' : Val} {a t u : Bytes} {more : StubMore} (h : v.Cut v' (a ++ (more.lead ++ (t ++ u)))) (ha : Blank a) :
    v.Cut v' (t ++ u) ∧ a = [] ∧ more = .nothing := by
  cases more with
  | nothing => exact ⟨(h.close ha).2, (h.close ha).1, rfl⟩
  | closed => exact (h.blank ha (.inr (.inl rfl))).elim
  | comma is => exact (h.blank ha (.inl rfl)).elim

theorem Val.Cut.rest {v v' : Val} {a t u : Bytes} {more : StubRest} (h : v.Cut v' (a ++ (more.lead ++ (t ++ u)))) (ha : Blank a) :
    v.Cut v' (t ++ u) ∧ a = [] ∧ more = .nothing := by
  cases more with
  | nothing => exact ⟨(h.close ha).2, (h.close ha).1, rfl⟩
  | closed => exact (h.blank ha (.inr (.inr rfl))).elim
  | comma is => exact (h.blank ha (.inl rfl)).elim

theorem prefix_mid {α : Type} (a : List α) {b c : List α} (h : b <+: c) : a ++ b <+: a ++ c := (List.prefix_append_right_inj a).mpr h

theorem prefix_then {α : Type} {b c : List α} (d : List α) (h : b <+: c) : b <+: c ++ d := h.trans (List.prefix_append c d)

theorem Val.same_events {v v' : Val} (h : v.strip = v'.strip) (path : List Bytes) : v.events path = v'.events path := by
  rw [← Val.strip_events, h, Val.strip_events]

theorem Val.same_keys {v v' : Val} (h : v.strip = v'.strip) {P : Bytes → Prop} (hk : v'.Keys P) : v.Keys P :=
  (Val.keys_strip v).mp (h ▸ (Val.keys_strip v').mpr hk)

theorem Val.top (hs : strict) {v v' : Val} {x x' b b' : Bytes} (hv' : v'.Meets (.json num str key head)) (hv : v.Loose strict)
    (hc : v'.Clear x') (hb : Blank b) (hb' : Spaces b') (e : b ++ (v.text ++ x) = b' ++ (v'.text ++ x')) :
    (v.strip = v'.strip ∧ x = x') ∨ v.Cut v' x := by
  obtain ⟨d, r, ex, hd⟩ := hv.start
  obtain ⟨c, r', ev, hc', _⟩ := hv'.first
  obtain ⟨_, k1, k2⟩ := blank_split hb (blank_spaces hb') hd.1 hc'.1
    (show b ++ d :: (r ++ x) = b' ++ c :: (r' ++ x') from by simpa [ex, ev] using e)
  exact Val.start hv' hv hs hc (by rw [ex, ev, k1]; simp [k2])

/-- A key and its colon. -/
theorem StubMembers.start_key {js : Members} {a a' b k m x s : Bytes} (hj : js.Meets (.json num str key head)) (ha : Blank a) (hb : Blank b)
    (hk : Skim false k) (hm : Spaces m) (ha' : Spaces a') (e : (a ++ b) ++ 34 :: (k ++ 34 :: (m ++ 58 :: x)) = a' ++ (js.text ++ 125 :: s)) :
    ∃ b' m' n' v' a2 more, js = .cons b' k m' n' v' a2 more ∧ x = n' ++ (v'.text ++ (a2 ++ (more.textMore ++ 125 :: s))) ∧ Spaces n' ∧
      v'.Meets (.json num str key head) ∧ v'.Clear (a2 ++ (more.textMore ++ 125 :: s)) := by
  cases js with
  | nil => exact False.elim (not_blank_split (ha.append hb) (blank_spaces ha') quote_solid brace_solid (by decide) e)
  | cons b' k' m' n' v' a2 more =>
    obtain ⟨hb', hk', hm', hn', hv', _, ha2, hmore⟩ := hj
    obtain ⟨_, _, e1⟩ := blank_split (ha.append hb) (blank_spaces (Spaces.app ha' hb')) quote_solid quote_solid
      (show (a ++ b) ++ 34 :: (k ++ 34 :: (m ++ 58 :: x)) =
        (a' ++ b') ++ 34 :: (k' ++ 34 :: (m' ++ 58 :: (n' ++ (v'.text ++ (a2 ++ (more.textMore ++ 125 :: s)))))) from by
        rw [e]; simp [Members.text])
    obtain ⟨ek, e2⟩ := body_unique hk hk'.1.tidy e1.symm
    subst ek
    obtain ⟨_, _, e3⟩ := blank_split (blank_spaces hm) (blank_spaces hm') colon_solid colon_solid e2.symm
    exact ⟨b', m', n', v', a2, more, rfl, e3, hn', hv',
      clear_of (Members.endsBlank (strict := True) (blank_spaces ha2) more (Members.Meets.loose hmore))⟩

mutual
theorem Stub.start (hs : strict) {t u : Bytes} : ∀ (x : Stub) (v : Val) {s : Bytes}, v.Meets (.json num str key head) →
    x.Loose strict → x.Faces t → v.Clear s → x.lead ++ (t ++ u) = v.text ++ s → x.Of t u v
  | .nothing, _, _, _, _, _, _, _ => trivial
  | .begun p, v, s, hv, _, hf, hc', e => by
    obtain ⟨c, r, ev, hc, h1, h2, h3⟩ := hv.first
    have e' : t ++ u = c :: (r ++ s) := by rw [show t ++ u = v.text ++ s from e, ev]; rfl
    cases p with
    | none => exact hf.elim
    | array =>
      obtain ⟨r', rfl⟩ := hf
      injection e' with e' _
      obtain ⟨w, is, rfl⟩ := h1 e'.symm
      exact ⟨by simp, trivial, s, hc', e⟩
    | object =>
      obtain ⟨r', rfl⟩ := hf
      injection e' with e' _
      obtain ⟨w, is, rfl⟩ := h2 e'.symm
      exact ⟨by simp, trivial, s, hc', e⟩
    | atom =>
      obtain ⟨d, r', rfl, hd1, hd2, _⟩ := hf
      injection e' with e' _
      subst e'
      obtain ⟨tok, rfl⟩ := h3 hd1 hd2
      exact ⟨by simp, trivial, s, hc', e⟩
  | .arr w is, v, s, hv, hl, hf, _, e => by
    obtain ⟨c, r, ev, hc, h1, _, _⟩ := hv.first
    obtain ⟨w', js, rfl⟩ := h1 (by rw [ev] at e; injection e with e _; exact e.symm)
    simp only [Stub.lead, Val.text, List.cons_append, List.append_assoc, List.nil_append, List.cons.injEq, true_and] at e
    exact ⟨w', js, rfl, StubItems.start hs is js hv.2 hl.2 hf hl.1 hv.1 e⟩
  | .obj w ms, v, s, hv, hl, hf, _, e => by
    obtain ⟨c, r, ev, hc, _, h1, _⟩ := hv.first
    obtain ⟨w', js, rfl⟩ := h1 (by rw [ev] at e; injection e with e _; exact e.symm)
    simp only [Stub.lead, Val.text, List.cons_append, List.append_assoc, List.nil_append, List.cons.injEq, true_and] at e
    rcases hl.1 with hw | ⟨hd, _⟩
    · exact ⟨w', js, rfl, StubMembers.start hs ms js hv.2 hl.2 hf hw hv.1 e⟩
    · exact (not_doubled hv.1 hv.2 hd e.symm).elim

theorem StubItems.start (hs : strict) {t u : Bytes} : ∀ (is : StubItems) (js : Items) {a a' s : Bytes},
    js.Meets (.json num str key head) → is.Loose strict → is.Faces t → Blank a → Spaces a' →
    a ++ (is.lead ++ (t ++ u)) = a' ++ (js.text ++ 93 :: s) → is.Of t u js
  | .closed, js, a, a', s, hj, _, _, ha, ha', e => by
    cases js with
    | nil => rfl
    | cons b' v a2 more =>
      obtain ⟨hb', hv, ha2, hmore⟩ := hj
      obtain ⟨c, r', ev, hc, _⟩ := hv.first
      obtain ⟨_, k, _⟩ := blank_split ha (blank_spaces (Spaces.app ha' hb')) bracket_solid hc.1
        (show a ++ 93 :: (t ++ u) = (a' ++ b') ++ c :: (r' ++ (a2 ++ (more.textMore ++ 93 :: s))) from by
          simpa [StubItems.lead, Items.text, ev] using e)
      exact absurd k.symm hc.2.1
  | .here b x, js, a, a', s, hj, hl, hf, ha, ha', e => by
    obtain ⟨hb, _, hlx⟩ := hl
    obtain ⟨hf1, hf2⟩ := hf
    by_cases hx : x = .nothing
    · exact .inl hx
    · obtain ⟨d, r, ex, hd, h93⟩ := Stub.first (u := u) hf2 hx
      simp only [StubItems.lead, List.append_assoc] at e
      rw [ex, ← List.append_assoc] at e
      cases js with
      | nil =>
        obtain ⟨_, rfl, _⟩ := space_split (ha.append hb) ha' bracket_solid hd e
        obtain ⟨k1, k2⟩ := h93 rfl
        exact absurd k2 (hf1 k1)
      | cons b' v a2 more =>
        obtain ⟨hb', hv, ha2, hmore⟩ := hj
        obtain ⟨c, r', ev, hc, _⟩ := hv.first
        obtain ⟨_, k1, k2⟩ := space_split (ha.append hb) (Spaces.app ha' hb') hc.1 hd
          (show (a ++ b) ++ d :: r = (a' ++ b') ++ c :: (r' ++ (a2 ++ (more.textMore ++ 93 :: s))) from by
            rw [e]; simp [Items.text, ev])
        have e2 : x.lead ++ (t ++ u) = v.text ++ (a2 ++ (more.textMore ++ 93 :: s)) := by rw [ex, ev, k1, k2]; rfl
        exact .inr ⟨b', v, a2, more, rfl, Stub.start hs x v hv hlx hf2
          (clear_of (Items.endsBlank (strict := True) (blank_spaces ha2) more (Items.Meets.loose hmore))) e2⟩
  | .later b v a2 more, js, a, a', s, hj, hl, hf, ha, ha', e => by
    obtain ⟨hb, _, hv, ha2, hmore⟩ := hl
    obtain ⟨d, r, ex, hd⟩ := hv.start
    simp only [StubItems.lead, List.append_assoc] at e
    cases js with
    | nil =>
      exact not_blank_split (ha.append hb) (blank_spaces ha') hd.1 bracket_solid hd.2.1
        (show (a ++ b) ++ d :: (r ++ (a2 ++ (more.lead ++ (t ++ u)))) = a' ++ 93 :: s from by simpa [Items.text, ex] using e)
    | cons b' v' a2' more' =>
      obtain ⟨hb', hv', ha2', hmore'⟩ := hj
      have e2 : (a ++ b) ++ (v.text ++ (a2 ++ (more.lead ++ (t ++ u)))) = (a' ++ b') ++ (v'.text ++ (a2' ++ (more'.textMore ++ 93 :: s))) := by
        simpa [Items.text] using e
      refine ⟨b', v', a2', more', rfl, ?_⟩
      rcases Val.top hs hv' hv (clear_of (Items.endsBlank (strict := True) (blank_spaces ha2') more' (Items.Meets.loose hmore')))
        (ha.append hb) (Spaces.app ha' hb') e2 with ⟨j1, j2⟩ | hcut
      · exact .inl ⟨j1, StubMore.start hs more more' hmore' hmore hf ha2 ha2' j2⟩
      · exact .inr (hcut.more ha2)

theorem StubMore.start (hs : strict) {t u : Bytes} : ∀ (more : StubMore) (js : Items) {a a' s : Bytes},
    js.Meets (.json num str key head) → more.Loose strict → more.Faces t → Blank a → Spaces a' →
    a ++ (more.lead ++ (t ++ u)) = a' ++ (js.textMore ++ 93 :: s) → more.Of t u js
  | .nothing, _, _, _, _, _, _, _, _, _, _ => trivial
  | .closed, js, a, a', s, hj, hl, hf, ha, ha', e => by
    cases js with
    | nil => rfl
    | cons b' v' a2' more' =>
      exact False.elim (not_blank_split ha (blank_spaces ha') bracket_solid comma_solid (by decide)
        (show a ++ 93 :: (t ++ u) = a' ++ 44 :: ((Items.cons b' v' a2' more').text ++ 93 :: s) from by
          simpa [Items.textMore, Items.text, StubMore.lead] using e))
  | .comma is, js, a, a', s, hj, hl, hf, ha, ha', e => by
    cases js with
    | nil =>
      exact False.elim (not_blank_split ha (blank_spaces ha') comma_solid bracket_solid (by decide)
        (show a ++ 44 :: (is.lead ++ (t ++ u)) = a' ++ 93 :: s from by simpa [Items.textMore, StubMore.lead] using e))
    | cons b' v' a2' more' =>
      obtain ⟨_, _, k⟩ := blank_split ha (blank_spaces ha') comma_solid comma_solid
        (show a ++ 44 :: (is.lead ++ (t ++ u)) = a' ++ 44 :: ((Items.cons b' v' a2' more').text ++ 93 :: s) from by
          simpa [Items.textMore, Items.text, StubMore.lead] using e)
      exact ⟨by simp, StubItems.start hs is (.cons b' v' a2' more') (a := []) (a' := []) hj hl.2 hf (List.forall_mem_nil _)
        (List.forall_mem_nil _) k⟩

theorem StubMembers.start (hs : strict) {t u : Bytes} : ∀ (ms : StubMembers) (js : Members) {a a' s : Bytes},
    js.Meets (.json num str key head) → ms.Loose strict → ms.Faces t → Blank a → Spaces a' →
    a ++ (ms.lead ++ (t ++ u)) = a' ++ (js.text ++ 125 :: s) → ms.Of t u js
  | .closed, js, a, a', s, hj, _, _, ha, ha', e => by
    cases js with
    | nil => rfl
    | cons b' k' m' n' v' a2 more =>
      exact False.elim (not_blank_split ha (blank_spaces (Spaces.app ha' hj.1)) brace_solid quote_solid (by decide)
        (show a ++ 125 :: (t ++ u) = (a' ++ b') ++ 34 :: (k' ++ 34 :: (m' ++ 58 :: (n' ++ (v'.text ++ (a2 ++ (more.textMore ++ 125 :: s)))))) from by
          simpa [StubMembers.lead, Members.text] using e))
  | .key b k m, js, a, a', s, hj, hl, _, ha, ha', e => by
    obtain ⟨hb, hk, hm⟩ := hl
    obtain ⟨b', m', n', v', a2, more, e1, e2, hn', hv', hc⟩ := StubMembers.start_key hj ha hb hk hm ha'
      (show (a ++ b) ++ 34 :: (k ++ 34 :: (m ++ 58 :: (t ++ u))) = a' ++ (js.text ++ 125 :: s) from by simpa [StubMembers.lead] using e)
    exact ⟨b', m', n', v', a2, more, _, e1, hc, e2⟩
  | .here b k m n x, js, a, a', s, hj, hl, hf, ha, ha', e => by
    obtain ⟨hb, hk, hm, hn, hlx⟩ := hl
    obtain ⟨b', m', n', v', a2, more, e1, e2, hn', hv', hc⟩ := StubMembers.start_key hj ha hb hk hm ha'
      (show (a ++ b) ++ 34 :: (k ++ 34 :: (m ++ 58 :: (n ++ (x.lead ++ (t ++ u))))) = a' ++ (js.text ++ 125 :: s) from by
        simpa [StubMembers.lead] using e)
    refine ⟨b', m', n', v', a2, more, e1, ?_⟩
    by_cases hx : x = .nothing
    · subst hx; trivial
    · obtain ⟨d, r, ex, hd, _⟩ := Stub.first (u := u) hf hx
      obtain ⟨c, r', ev, hc', _⟩ := hv'.first
      obtain ⟨_, k1, k2⟩ := space_split hn hn' hc'.1 hd
        (show n ++ d :: r = n' ++ c :: (r' ++ (a2 ++ (more.textMore ++ 125 :: s))) from by rw [← ex, e2, ev]; rfl)
      exact Stub.start hs x v' hv' hlx hf hc
        (show x.lead ++ (t ++ u) = v'.text ++ (a2 ++ (more.textMore ++ 125 :: s)) from by rw [ex, ev, k1, k2]; rfl)
  | .ended b k m n v, js, a, a', s, hj, hl, hf, ha, ha', e => by
    obtain ⟨hb, hk, hm, hn, hv⟩ := hl
    obtain ⟨b', m', n', v', a2, more, e1, e2, hn', hv', hc⟩ := StubMembers.start_key hj ha hb hk hm ha'
      (show (a ++ b) ++ 34 :: (k ++ 34 :: (m ++ 58 :: (n ++ (v.text ++ (t ++ u))))) = a' ++ (js.text ++ 125 :: s) from by
        simpa [StubMembers.lead] using e)
    refine ⟨b', m', n', v', a2, more, e1, ?_⟩
    rcases Val.top hs hv' hv hc hn hn' e2 with ⟨j1, _⟩ | hcut
    · exact .inl j1
    · exact .inr hcut
  | .later b k m n v a2 more, js, a, a', s, hj, hl, hf, ha, ha', e => by
    obtain ⟨hb, hk, hm, hn, hv, ha2, hmore⟩ := hl
    obtain ⟨b', m', n', v', a2', more', e1, e2, hn', hv', hc⟩ := StubMembers.start_key hj ha hb hk hm ha'
      (show (a ++ b) ++ 34 :: (k ++ 34 :: (m ++ 58 :: (n ++ (v.text ++ (a2 ++ (more.lead ++ (t ++ u))))))) = a' ++ (js.text ++ 125 :: s) from by
        simpa [StubMembers.lead] using e)
    subst e1
    refine ⟨b', m', n', v', a2', more', rfl, ?_⟩
    obtain ⟨_, _, _, _, _, _, ha2', hmore'⟩ := hj
    rcases Val.top hs hv' hv hc hn hn' e2 with ⟨j1, j2⟩ | hcut
    · exact .inl ⟨j1, StubRest.start hs more more' hmore' hmore hf ha2 ha2' j2⟩
    · exact .inr (hcut.rest ha2)

theorem StubRest.start (hs : strict) {t u : Bytes} : ∀ (more : StubRest) (js : Members) {a a' s : Bytes},
    js.Meets (.json num str key head) → more.Loose strict → more.Faces t → Blank a → Spaces a' →
    a ++ (more.lead ++ (t ++ u)) = a' ++ (js.textMore ++ 125 :: s) → more.Of t u js
  | .nothing, _, _, _, _, _, _, _, _, _, _ => trivial
  | .closed, js, a, a', s, hj, hl, hf, ha, ha', e => by
    cases js with
    | nil => rfl
    | cons b' k' m' n' v' a2' more' =>
      exact False.elim (not_blank_split ha (blank_spaces ha') brace_solid comma_solid (by decide)
        (show a ++ 125 :: (t ++ u) = a' ++ 44 :: ((Members.cons b' k' m' n' v' a2' more').text ++ 125 :: s) from by
          simpa [Members.textMore, Members.text, StubRest.lead] using e))
  | .comma ms, js, a, a', s, hj, hl, hf, ha, ha', e => by
    cases js with
    | nil =>
      exact False.elim (not_blank_split ha (blank_spaces ha') comma_solid brace_solid (by decide)
        (show a ++ 44 :: (ms.lead ++ (t ++ u)) = a' ++ 125 :: s from by simpa [Members.textMore, StubRest.lead] using e))
    | cons b' k' m' n' v' a2' more' =>
      obtain ⟨_, _, k⟩ := blank_split ha (blank_spaces ha') comma_solid comma_solid
        (show a ++ 44 :: (ms.lead ++ (t ++ u)) = a' ++ 44 :: ((Members.cons b' k' m' n' v' a2' more').text ++ 125 :: s) from by
          simpa [Members.textMore, Members.text, StubRest.lead] using e)
      exact ⟨by simp, StubMembers.start hs ms (.cons b' k' m' n' v' a2' more') (a := []) (a' := []) hj hl.2 hf (List.forall_mem_nil _)
        (List.forall_mem_nil _) k⟩
end

/-- The first stub of a document, with what is in front of it. -/
theorem Stub.top (hs : strict) {x : Stub} {v : Val} {t u b b' s : Bytes} (hv : v.Meets (.json num str key head))
    (hl : x.Loose strict) (hf : x.Faces t) (hc : v.Clear s) (hb : Blank b) (hb' : Spaces b')
    (e : b ++ (x.lead ++ (t ++ u)) = b' ++ (v.text ++ s)) : x.Of t u v := by
  by_cases hx : x = .nothing
  · subst hx; trivial
  · obtain ⟨d, r, ex, hd, _⟩ := Stub.first (u := u) hf hx
    obtain ⟨c, r', ev, hc', _⟩ := hv.first
    obtain ⟨_, k1, k2⟩ := space_split hb hb' hc'.1 hd (show b ++ d :: r = b' ++ c :: (r' ++ s) from by rw [← ex, e, ev]; rfl)
    exact Stub.start hs x v hv hl hf hc (by rw [ex, ev, k1, k2]; rfl)

/-- `x` is the beginning of `v`. -/
structure Fore (y : Bytes) (x : Stub) (v : Val) : Prop where
  events : ∀ path, x.events path <+: v.events path
  copy : ∀ sep, x.copy y sep <+: sep ++ v.strip.text
  keys : ∀ P, v.Keys P → x.Keys P

theorem Fore.nothing (y : Bytes) (v : Val) : Fore y .nothing v :=
  ⟨fun _ => List.nil_prefix, fun _ => List.nil_prefix, fun _ _ => trivial⟩

mutual
theorem Stub.Of.fore (hs : strict) {t u y : Bytes} (hy : Copied strict t y) : ∀ (x : Stub) (v : Val), v.Meets (.json num str key head) →
    x.Of t u v → Fore y x v
  | .nothing, v, _, _ => .nothing y v
  | .begun p, v, hv, ⟨hp, hst, s, _, e⟩ => by
    cases p with
    | none => exact (hp rfl).elim
    | array =>
      cases v with
      | arr => exact ⟨fun path => ⟨_, rfl⟩, fun sep => prefix_mid sep ⟨_, rfl⟩, fun _ _ => trivial⟩
      | _ => exact hst.elim
    | object =>
      cases v with
      | obj => exact ⟨fun path => ⟨_, rfl⟩, fun sep => prefix_mid sep ⟨_, rfl⟩, fun _ _ => trivial⟩
      | _ => exact hst.elim
    | atom =>
      cases v with
      | atom tok => exact ⟨fun path => ⟨[], rfl⟩, fun sep => prefix_mid sep (copied_atom hv hs hy e), fun _ _ => trivial⟩
      | _ => exact hst.elim
  | .arr w is, v, hv, ⟨w', js, ev, h⟩ => by
    subst ev
    obtain ⟨k1, k2, k3⟩ := StubItems.Of.fore hs hy is js hv.2 h
    refine ⟨fun path => ?_, fun sep => ?_, k3⟩
    · simp only [Stub.events, Val.events]
      exact List.cons_prefix_cons.mpr ⟨rfl, prefix_then _ (k1 _)⟩
    · simp only [Stub.copy, Val.strip, Val.text]
      exact prefix_mid sep (List.cons_prefix_cons.mpr ⟨rfl, (by simpa using prefix_then [93] (k2 []))⟩)
  | .obj w ms, v, hv, ⟨w', js, ev, h⟩ => by
    subst ev
    obtain ⟨k1, k2, k3⟩ := StubMembers.Of.fore hs hy ms js hv.2 h
    refine ⟨fun path => ?_, fun sep => ?_, k3⟩
    · simp only [Stub.events, Val.events]
      exact List.cons_prefix_cons.mpr ⟨rfl, prefix_then _ (k1 _)⟩
    · simp only [Stub.copy, Val.strip, Val.text]
      exact prefix_mid sep (List.cons_prefix_cons.mpr ⟨rfl, (by simpa using prefix_then [125] (k2 []))⟩)

theorem StubItems.Of.fore (hs : strict) {t u y : Bytes} (hy : Copied strict t y) : ∀ (is : StubItems) (js : Items),
    js.Meets (.json num str key head) → is.Of t u js →
    (∀ path, is.events path <+: js.events path) ∧ (∀ sep, is.copy y sep <+: sep ++ js.strip.text) ∧ ∀ P, js.Keys P → is.Keys P
  | .closed, _, _, _ => ⟨fun _ => List.nil_prefix, fun _ => List.nil_prefix, fun _ _ => trivial⟩
  | .here b x, js, hj, h => by
    rcases h with rfl | ⟨b', v, a, more, rfl, h⟩
    · exact ⟨fun _ => List.nil_prefix, fun _ => List.nil_prefix, fun _ _ => trivial⟩
    · obtain ⟨j1, j2, j3⟩ := Stub.Of.fore hs hy x v hj.2.1 h
      refine ⟨fun path => prefix_then _ (j1 path), fun sep => ?_, fun P hP => j3 P hP.1⟩
      simp only [StubItems.copy, Items.strip, Items.text, List.nil_append]
      rw [← List.append_assoc]
      exact prefix_then _ (j2 sep)
  | .later b v a more, js, hj, ⟨b', v', a', more', ej, h⟩ => by
    subst ej
    rcases h with ⟨j1, h⟩ | ⟨hcut, _, rfl⟩
    · obtain ⟨i1, i2, i3⟩ := StubMore.Of.fore hs hy more more' hj.2.2.2 h
      refine ⟨fun path => ?_, fun sep => ?_, fun P hP => ⟨Val.same_keys j1 hP.1, i3 P hP.2⟩⟩
      · simp only [StubItems.events, Items.events, Val.same_events j1]
        exact prefix_mid _ (i1 path)
      · simp only [StubItems.copy, Items.strip, Items.text, List.nil_append, j1]
        exact prefix_mid sep (prefix_mid _ i2)
    · refine ⟨fun path => ?_, fun sep => ?_, fun P _ => ⟨hcut.keys P, trivial⟩⟩
      · simp only [StubItems.events, Items.events, StubMore.events, List.append_nil, hcut.events]
        exact List.prefix_append _ _
      · simp only [StubItems.copy, Items.strip, Items.text, StubMore.copy, List.nil_append, List.append_nil]
        exact prefix_mid sep (prefix_then _ hcut.text)

theorem StubMore.Of.fore (hs : strict) {t u y : Bytes} (hy : Copied strict t y) : ∀ (more : StubMore) (js : Items),
    js.Meets (.json num str key head) → more.Of t u js →
    (∀ path, more.events path <+: js.events path) ∧ more.copy y <+: js.strip.textMore ∧ ∀ P, js.Keys P → more.Keys P
  | .nothing, _, _, _ => ⟨fun _ => List.nil_prefix, List.nil_prefix, fun _ _ => trivial⟩
  | .closed, _, _, _ => ⟨fun _ => List.nil_prefix, List.nil_prefix, fun _ _ => trivial⟩
  | .comma is, js, hj, ⟨hn, h⟩ => by
    obtain ⟨i1, i2, i3⟩ := StubItems.Of.fore hs hy is js hj h
    refine ⟨i1, ?_, i3⟩
    cases js with
    | nil => exact (hn rfl).elim
    | cons => exact i2 [44]

theorem StubMembers.Of.fore (hs : strict) {t u y : Bytes} (hy : Copied strict t y) : ∀ (ms : StubMembers) (js : Members),
    js.Meets (.json num str key head) → ms.Of t u js →
    (∀ path, ms.events path <+: js.events path) ∧ (∀ sep, ms.copy y sep <+: sep ++ js.strip.text) ∧ ∀ P, js.Keys P → ms.Keys P
  | .closed, _, _, _ => ⟨fun _ => List.nil_prefix, fun _ => List.nil_prefix, fun _ _ => trivial⟩
  | .key _ k _, js, _, ⟨_, _, _, _, _, _, _, ej, _⟩ => by
    subst ej
    exact ⟨fun _ => List.nil_prefix, fun _ => List.nil_prefix, fun _ hP => hP.1⟩
  | .here _ k _ _ x, js, hj, ⟨_, _, _, v, _, _, ej, h⟩ => by
    subst ej
    obtain ⟨j1, j2, j3⟩ := Stub.Of.fore hs hy x v hj.2.2.2.2.1 h
    refine ⟨fun path => ?_, fun sep => ?_, fun P hP => ⟨hP.1, j3 P hP.2.1⟩⟩
    · simp only [StubMembers.events, Members.events, List.cons_append, List.append_assoc]
      exact List.cons_prefix_cons.mpr ⟨rfl, prefix_then _ (j1 _)⟩
    · simp only [StubMembers.copy, Members.strip, Members.text, List.nil_append]
      refine prefix_mid sep (List.cons_prefix_cons.mpr ⟨rfl, prefix_mid _ (List.cons_prefix_cons.mpr ⟨rfl, List.cons_prefix_cons.mpr ⟨rfl, ?_⟩⟩)⟩)
      exact prefix_then _ (j2 [])
  | .ended _ k _ _ v, js, hj, ⟨_, _, _, v', _, _, ej, h⟩ => by
    subst ej
    have hev : (∀ path, v.events path = v'.events path) ∧ ∀ P, v'.Keys P → v.Keys P := by
      rcases h with j1 | hcut
      · exact ⟨Val.same_events j1, fun _ => Val.same_keys j1⟩
      · exact ⟨hcut.events, fun P _ => hcut.keys P⟩
    refine ⟨fun path => ?_, fun _ => List.nil_prefix, fun P hP => ⟨hP.1, hev.2 P hP.2.1⟩⟩
    simp only [StubMembers.events, Members.events, List.cons_append, List.append_assoc, hev.1]
    exact List.cons_prefix_cons.mpr ⟨rfl, List.prefix_append _ _⟩
  | .later _ k _ _ v _ more, js, hj, ⟨_, _, _, v', _, more', ej, h⟩ => by
    subst ej
    rcases h with ⟨j1, h⟩ | ⟨hcut, _, rfl⟩
    · obtain ⟨i1, i2, i3⟩ := StubRest.Of.fore hs hy more more' hj.2.2.2.2.2.2.2 h
      refine ⟨fun path => ?_, fun sep => ?_, fun P hP => ⟨hP.1, Val.same_keys j1 hP.2.1, i3 P hP.2.2⟩⟩
      · simp only [StubMembers.events, Members.events, Val.same_events j1]
        exact prefix_mid _ (i1 path)
      · simp only [StubMembers.copy, Members.strip, Members.text, List.nil_append, j1]
        refine prefix_mid sep (List.cons_prefix_cons.mpr ⟨rfl, prefix_mid _ (List.cons_prefix_cons.mpr ⟨rfl, List.cons_prefix_cons.mpr ⟨rfl, ?_⟩⟩)⟩)
        exact prefix_mid _ i2
    · refine ⟨fun path => ?_, fun sep => ?_, fun P hP => ⟨hP.1, hcut.keys P, trivial⟩⟩
      · simp only [StubMembers.events, Members.events, StubRest.events, List.append_nil, hcut.events]
        exact List.prefix_append _ _
      · simp only [StubMembers.copy, Members.strip, Members.text, StubRest.copy, List.nil_append, List.append_nil]
        refine prefix_mid sep (List.cons_prefix_cons.mpr ⟨rfl, prefix_mid _ (List.cons_prefix_cons.mpr ⟨rfl, List.cons_prefix_cons.mpr ⟨rfl, ?_⟩⟩)⟩)
        exact prefix_then _ hcut.text

theorem StubRest.Of.fore (hs : strict) {t u y : Bytes} (hy : Copied strict t y) : ∀ (more : StubRest) (js : Members),
    js.Meets (.json num str key head) → more.Of t u js →
    (∀ path, more.events path <+: js.events path) ∧ more.copy y <+: js.strip.textMore ∧ ∀ P, js.Keys P → more.Keys P
  | .nothing, _, _, _ => ⟨fun _ => List.nil_prefix, List.nil_prefix, fun _ _ => trivial⟩
  | .closed, _, _, _ => ⟨fun _ => List.nil_prefix, List.nil_prefix, fun _ _ => trivial⟩
  | .comma ms, js, hj, ⟨hn, h⟩ => by
    obtain ⟨i1, i2, i3⟩ := StubMembers.Of.fore hs hy ms js hj h
    refine ⟨i1, ?_, i3⟩
    cases js with
    | nil => exact (hn rfl).elim
    | cons => exact i2 [44]
end

end

theorem copied_nothing (strict : Prop) (t : Bytes) : Copied strict t [] := ⟨[], t, rfl, List.forall_mem_nil _, .inl rfl⟩

theorem Stub.lead_nil {x : Stub} (h : x.lead = []) (hf : x.Faces []) : x = .nothing := by
  cases x with
  | nothing => rfl
  | begun p =>
    exfalso
    cases p with
    | none => exact hf
    | array => obtain ⟨_, h⟩ := hf; simp at h
    | object => obtain ⟨_, h⟩ := hf; simp at h
    | atom => obtain ⟨_, _, h, _⟩ := hf; simp at h
  | arr => simp [Stub.lead] at h
  | obj => simp [Stub.lead] at h

/-- `ds'` and a part `x` of another document are a beginning of `ds`. -/
def Docs.Of (t u : Bytes) (x : Stub) : Docs → Docs → Prop
  | [], [] => x = .nothing
  | [], (_, v) :: _ => x.Of t u v
  | _ :: _, [] => False
  | (_, v') :: ds', (_, v) :: ds => v'.strip = v.strip ∧ Docs.Of t u x ds' ds ∨ v'.Cut v u ∧ ds' = [] ∧ x = .nothing ∧ t = []

/-- What was read of the beginning of a text of JSON documents are the first of the documents and a part of the next one. -/
theorem Docs.start {strict : Prop} (hs : strict) {L : Nat} {x : Stub} {b0 t u tail : Bytes} (hl : x.Loose strict)
    (hf : x.Faces t) : ∀ (ds' ds : Docs), Docs.Json ds tail → (∀ d ∈ ds, d.2.Short L) → Docs.Loose strict ds' b0 →
    Docs.Parted L ds' (b0 ++ (x.lead ++ t)) → Docs.text ds' (b0 ++ (x.lead ++ t)) ++ u = Docs.text ds tail → Docs.Of t u x ds' ds
  | [], [], hj, _, hb, _, e => by
    by_cases hx : x = .nothing
    · exact hx
    · obtain ⟨d, r, ex, hd, _⟩ := Stub.first (u := u) hf hx
      refine absurd (hj d ?_) hd
      rw [show tail = b0 ++ (x.lead ++ (t ++ u)) from by rw [← show _ = tail from e]; simp [Docs.text], ex]; simp
  | [], (b, v) :: ds, hj, _, hb, _, e =>
    Stub.top hs hj.2.1 hl hf hj.2.2.1 hb hj.1
      (show b0 ++ (x.lead ++ (t ++ u)) = b ++ (v.text ++ Docs.text ds tail) from by
        rw [← show _ = b ++ (v.text ++ Docs.text ds tail) from e]; simp [Docs.text])
  | (b', v') :: ds', [], hj, _, hb, _, e => by
    obtain ⟨c, r, ev, st⟩ := hb.2.1.start
    have : c ∈ tail := by
      rw [← show _ = tail from e]; simp [Docs.text, ev]
    exact absurd (.inl (hj c this)) st.1
  | (b', v') :: ds', (b, v) :: ds, hj, hsh, hb, hp, e => by
    have e' : b' ++ (v'.text ++ (Docs.text ds' (b0 ++ (x.lead ++ t)) ++ u)) = b ++ (v.text ++ Docs.text ds tail) := by
      rw [← show _ = b ++ (v.text ++ Docs.text ds tail) from e]; simp [Docs.text]
    rcases Val.top hs hj.2.1 hb.2.1 hj.2.2.1 hb.1 hj.1 e' with ⟨k1, k2⟩ | hcut
    · exact .inl ⟨k1, Docs.start hs hl hf ds' ds hj.2.2.2 (fun d hd => hsh d (by simp [hd])) hb.2.2 hp.2 k2⟩
    · have hcut' := hcut
      obtain ⟨tok, d, z, u', rfl, rfl, h3, h4, h5⟩ := hcut
      cases hr : Docs.text ds' (b0 ++ (x.lead ++ t)) with
      | cons c r =>
        rw [hr] at h3
        injection h3 with h3 _
        subst h3
        exfalso
        rcases hp.1 h4 with h | h
        · exact h c r z hr h5
        · have := hsh (b, .atom (tok ++ c :: z)) (by simp) h5
          simp only [List.length_append, List.length_cons] at this
          omega
      | nil =>
        cases ds' with
        | cons d' ds' =>
          obtain ⟨c, r, ev, st⟩ := hb.2.2.2.1.start
          simp [Docs.text, ev] at hr
        | nil =>
          rw [hr, List.nil_append] at hcut'
          simp only [Docs.text, List.append_eq_nil_iff] at hr
          obtain ⟨_, h6, rfl⟩ := hr
          exact .inr ⟨hcut', rfl, Stub.lead_nil h6 hf, rfl⟩

theorem Docs.Of.events {strict : Prop} (hs : strict) {path : List Bytes} {x : Stub} {t u tail : Bytes} : ∀ (ds' ds : Docs), Docs.Json ds tail →
    Docs.Of t u x ds' ds → Docs.events path ds' ++ x.events path <+: Docs.events path ds
  | [], [], _, h => by obtain rfl := h; exact List.nil_prefix
  | [], (b, v) :: ds, hj, h => prefix_then _ ((Stub.Of.fore hs (copied_nothing strict t) x v hj.2.1 h).events path)
  | (b', v') :: ds', (b, v) :: ds, hj, .inl ⟨k1, k2⟩ => by
    simp only [Docs.events, List.append_assoc, Val.same_events k1]
    exact prefix_mid _ (Docs.Of.events hs ds' ds hj.2.2.2 k2)
  | (b', v') :: ds', (b, v) :: ds, hj, .inr ⟨hcut, h1, h2, _⟩ => by
    subst h1 h2
    simp only [Docs.events, Stub.events, List.append_nil, hcut.events path]
    exact List.prefix_append _ _

/-! ## The claim -/

/-- What `scan` has reported to the client that writes down all calls, whatever the result. -/
theorem scan_begins (turns F : Nat) (R : Room) (stop : Bool) (l : List (Pos × Bytes)) (st st' : St (List Event)) (r : SRes Unit)
    (hu : Usable F st.rj) (hst : Holds st.pool R l) (h : scan turns F watch ⟨[], stop⟩ st = (st', r)) (hr : r ≠ .diverge) :
    ∃ ds b0 x t, st.rj.rest = Docs.text ds (b0 ++ (Stub.lead x ++ t)) ∧ Docs.Loose (Harmless st.rj) ds b0 ∧
      Docs.Parted st.rj.b.buf.length ds (b0 ++ (Stub.lead x ++ t)) ∧ x.Loose (Harmless st.rj) ∧ x.Faces t ∧ x.Open ∧
      st'.baton = st.baton ++ Docs.events (nameTop :: names l) ds ++ x.events (nameTop :: names l) := by
  by_cases hok : r = .ok ()
  · subst hok
    cases stop with
    | false =>
      obtain ⟨ds, tail, h1, h2, h3, h4, _⟩ := C65_accepted_partial turns F watch logger R l st st' watch_logs hu hst h
      exact ⟨ds, tail, .nothing, [], by simpa [Stub.lead] using h1, h2, by simpa [Stub.lead] using h3, trivial, trivial, trivial,
        by simpa [Stub.events] using Docs.scan_logged ds _ _ h4⟩
    | true =>
      rcases C65_first_partial turns F watch logger R l st st' watch_logs hu hst h with ⟨h1, h2, _⟩ | ⟨ws, v, h1, h2, h3, h4, h5⟩
      · exact ⟨[], st.rj.rest, .nothing, [], by simp [Stub.lead, Docs.text], h1, trivial, trivial, trivial, trivial,
          by simpa [Stub.events, Docs.events] using h2⟩
      · refine ⟨[(ws, v)], [], .nothing, st'.rj.rest, by simpa [Stub.lead, Docs.text] using h1, ⟨h2, h3, List.forall_mem_nil _⟩,
          ⟨by simpa [Stub.lead, Docs.text] using h4, trivial⟩, trivial, trivial, trivial, ?_⟩
        have : Docs.scan logger.handler R (nameTop :: names l) [(ws, v)] st.baton = .done st'.baton := by simp [Docs.scan, h5, Out.bind]
        simpa [Stub.events] using Docs.scan_logged _ _ _ this
  · obtain ⟨ds, b0, x, t, b1, h1, _, h3, h3', h4, _, h5, h6⟩ := (scan_part (watch_logs.sees_all F ⟨Harmless st.rj, st.rj.b.buf.length⟩) rfl turns
      ⟨hu, id, rfl⟩ hst h hok hr).broken_stop
    obtain ⟨h7, h8⟩ := Stub.Gives.logged x _ _ _ _ h6
    exact ⟨ds, b0, x, t, h1, h3, h3', h4, Stub.Gives.faces x _ _ _ _ h6, h7, by rw [h8, Docs.scan_logged ds _ _ h5]⟩

/-- **C91, partial.** If the input is the beginning of a text of JSON documents (or the whole of it), then what `scan` reports is the beginning
of the events of these documents, with whatever result it returns.

Full statement: without `Harmless`, that is, for every input. It is false of the code: `C91_half_escape`. -/
theorem C91_events_partial (turns F : Nat) (R : Room) (stop : Bool) (l : List (Pos × Bytes)) (st st' : St (List Event)) (r : SRes Unit)
    (u tail : Bytes) (ds : Docs) (hu : Usable F st.rj) (hst : Holds st.pool R l) (hh : Harmless st.rj)
    (he : st.rj.rest ++ u = Docs.text ds tail) (hj : Docs.Json ds tail) (hs : ∀ d ∈ ds, d.2.Short st.rj.b.buf.length)
    (h : scan turns F watch ⟨[], stop⟩ st = (st', r)) (hr : r ≠ .diverge) :
    ∃ p, st'.baton = st.baton ++ p ∧ p <+: Docs.events (nameTop :: names l) ds := by
  obtain ⟨ds', b0, x, t, h1, h2, h3, h4, h5, h6, h7⟩ := scan_begins turns F R stop l st st' r hu hst h hr
  refine ⟨_, by rw [h7, List.append_assoc], ?_⟩
  exact Docs.Of.events hh ds' ds hj (Docs.start hh h4 h5 ds' ds hj hs h2 h3 (h1 ▸ he))

/-- **C91, partial**, for `idtransform`: if the input is the beginning of a JSON text, then what is written is the beginning of
what is written for the whole, be the result `Ok` or an error. -/
theorem C91_output_partial (turns F : Nat) (R : Room) (l : List (Pos × Bytes)) (rj rj' : RJ) (w w' : Writer) (pool pool' : U8Pool.Pool) (r : SRes Unit)
    (b u s : Bytes) (v : Val) (hu : Usable F rj) (hst : Holds pool R l) (hw : w.plan = []) (hh : Harmless rj)
    (he : rj.rest ++ u = b ++ (v.text ++ s)) (hb : Spaces b) (hj : v.Meets .plain) (hk : v.Keys Usual) (hc : v.Clear s)
    (h : idtransform turns F rj w pool = ((rj', w', pool'), r)) (hr : r = .ok () ∨ ∃ e, r = .err e) :
    ∃ p, w' = ⟨w.out ++ p, []⟩ ∧ p <+: v.strip.text := by
  rcases hr with rfl | ⟨e, rfl⟩
  · rcases C66_output_partial turns F R l rj rj' w w' pool pool' hu hst hw h with ⟨_, rfl, _⟩ | ⟨ws, v', h1, h2, h3, _, h5⟩
    · exact ⟨[], by simp [← hw], List.nil_prefix⟩
    · rw [h1] at he
      simp only [List.append_assoc] at he
      rcases Val.top hh hj h3 hc h2 hb he with ⟨k1, _⟩ | hcut
      · exact ⟨_, h5 (Val.same_keys k1 hk), by rw [k1]; exact List.prefix_rfl⟩
      · exact ⟨_, h5 (hcut.keys _), hcut.text⟩
  · obtain ⟨ws, x, t, h1, h2, h3, h4, h5⟩ := C90_output_partial turns F R l rj rj' w w' pool pool' e hu hst hw h
    rw [h1] at he
    simp only [List.append_assoc] at he
    have hf := fun y hy => Stub.Of.fore hh (y := y) hy x v hj (Stub.top hh hj h3 h4 hc h2 hb he)
    obtain ⟨_, y, hy, h6⟩ := h5 ((hf [] (copied_nothing _ _)).keys _ hk)
    exact ⟨_, h6, by simpa using (hf y hy).copy []⟩

/-- **C91, partial**, in other words: if the input of one scan is the beginning of the input of another one that returns `Ok` for JSON documents,
then what the first reports is the beginning of what the second reports, with other chunks, and buffers and stacks of other sizes. -/
theorem C91_agree_partial (turns turns' F F' : Nat) (R R' : Room) (stop : Bool) (l l' : List (Pos × Bytes)) (st st' st2 st2' : St (List Event))
    (r : SRes Unit) (u tail : Bytes) (ds : Docs) (hu : Usable F st.rj) (hu' : Usable F' st2.rj) (hst : Holds st.pool R l)
    (hst' : Holds st2.pool R' l') (hl : names l = names l') (hh : Harmless st.rj) (he : st.rj.rest ++ u = st2.rj.rest)
    (he' : st2.rj.rest = Docs.text ds tail) (hj : Docs.Json ds tail) (hs : ∀ d ∈ ds, d.2.Short st.rj.b.buf.length)
    (hs' : ∀ d ∈ ds, d.2.Short st2.rj.b.buf.length) (h : scan turns F watch ⟨[], stop⟩ st = (st', r)) (hr : r ≠ .diverge)
    (h' : scan turns' F' watch ⟨[], false⟩ st2 = (st2', .ok ())) :
    ∃ p q, st'.baton = st.baton ++ p ∧ st2'.baton = st2.baton ++ q ∧ p <+: q := by
  obtain ⟨p, h1, h2⟩ := C91_events_partial turns F R stop l st st' r u tail ds hu hst hh (he.trans he') hj hs h hr
  have h3 := (C79_scan_partial turns' F' watch logger R' l' st2 st2' ds tail watch_logs hu' hst' he' hj hs' h').1
  exact ⟨p, _, h1, Docs.scan_logged ds _ _ h3, hl ▸ h2⟩

/-! ### Examples -/

/-- ` [{"k": [1,t`, the beginning of ` [{"k": [1,true]}, "x"] `. -/
def exBeginning : Reader := [.data 32 [91, 123, 34, 107], .data 34 [58, 32, 91, 49, 44, 116]]

example : Usable 100 (RJ.new exBeginning (List.replicate 20 0)) ∧ Holds exPool exRoom [] ∧ Harmless (RJ.new exBeginning (List.replicate 20 0)) ∧
    (RJ.new exBeginning (List.replicate 20 0)).rest ++ [114, 117, 101, 93, 125, 44, 32, 34, 120, 34, 93, 32] = Docs.text [([32], exArr)] [32] ∧
    Docs.Json [([32], exArr)] [32] ∧ (∀ d ∈ [(([32], exArr) : Bytes × Val)], d.2.Short 20) ∧
    (scan 60 100 watch ⟨[], false⟩ ⟨.new exBeginning (List.replicate 20 0), [], exPool⟩).2 ≠ .diverge ∧
    (scan 60 100 watch ⟨[], false⟩ ⟨.new exBeginning (List.replicate 20 0), [], exPool⟩).1.baton.length = 6 ∧
    (scan 60 100 watch ⟨[], false⟩ ⟨.new exBeginning (List.replicate 20 0), [], exPool⟩).1.baton <+: Docs.events [nameTop] [([32], exArr)] :=
  ⟨usable_new _ _ _ (by decide) (by decide), exPool_holds, .inr (by decide), by decide, Docs.Meets.json exSt_meets,
    fun d hd => by simp at hd; subst hd; trivial, by decide +kernel, by decide +kernel, by decide +kernel⟩

/-- `idtransform` writes `[{"k":[1,` for it. -/
example : exArr.Meets .plain ∧ exArr.Keys Usual ∧ exArr.Clear [32] ∧
    (idtransform 60 100 (.new exBeginning (List.replicate 20 0)) ⟨[], []⟩ exPool).2 = .err (.rjiter ⟨.json .eofWhileParsingValue, 12⟩) ∧
    (idtransform 60 100 (.new exBeginning (List.replicate 20 0)) ⟨[], []⟩ exPool).1.2.1 = ⟨"[{\"k\":[1,".toUTF8.toList, []⟩ :=
  ⟨(Docs.Meets.json exSt_meets).2.1, ⟨⟨⟨by decide +kernel, by decide +kernel⟩, ⟨trivial, trivial, trivial⟩, trivial⟩, trivial, trivial⟩, trivial,
    by decide +kernel, by decide +kernel⟩

/-- `["éé","\" ,"]`, an array of two strings. -/
def exSplitMore : Val := .arr [] (.cons [] (.atom [34, 195, 169, 195, 169, 34]) [] (.cons [] (.atom [34, 92, 34, 32, 44, 34]) [] .nil))

theorem exSplitMore_meets : exSplitMore.Meets .plain := by
  have h0 : Spaces [] := by intro c hc; simp at hc
  have he : RawBody [195, 169, 195, 169] :=
    .char 'é' [195, 169] ⟨by decide, by decide, by decide⟩ (.char 'é' [] ⟨by decide, by decide, by decide⟩ .nil)
  have hq : RawBody [92, 34, 32, 44] :=
    .esc 34 '"' _ (by unfold Escape; decide) (.char ' ' [44] ⟨by decide, by decide, by decide⟩ (.char ',' [] ⟨by decide, by decide, by decide⟩ .nil))
  exact ⟨h0, h0, .string _ he trivial, h0, h0, .string _ hq trivial, h0, trivial⟩

/-- **C91, a false part**, and the reason for `Harmless`: for the document `["éé","\"] "]`, in two chunks, `scan` reports five events, of which the
last is none of the document; for `["éé","\" ,"]`, `idtransform` writes `["éé","\","`, with which nothing starts that is written for the
document. -/
theorem C91_half_escape :
    (∃ reader : Reader, reader.Clean ∧ reader.pending = exSplit.text ∧ exSplit.Meets .plain ∧
      (scan 60 100 watch ⟨[], false⟩ ⟨.new reader (List.replicate 40 0), [], exPool⟩).1.baton =
        exSplit.events [nameTop] ++ [.start .atom [nameTop]] ∧
      ¬ (scan 60 100 watch ⟨[], false⟩ ⟨.new reader (List.replicate 40 0), [], exPool⟩).1.baton <+: exSplit.events [nameTop]) ∧
    (∃ reader : Reader, reader.Clean ∧ reader.pending = exSplitMore.text ∧ exSplitMore.Meets .plain ∧ exSplitMore.Keys Usual ∧
      (idtransform 60 100 (.new reader (List.replicate 40 0)) ⟨[], []⟩ exPool).2 = .err (.rjiter ⟨.json .eofWhileParsingString, 19⟩) ∧
      (idtransform 60 100 (.new reader (List.replicate 40 0)) ⟨[], []⟩ exPool).1.2.1.out = "[\"éé\",\"\\\",\"".toUTF8.toList ∧
      ¬ (idtransform 60 100 (.new reader (List.replicate 40 0)) ⟨[], []⟩ exPool).1.2.1.out <+: exSplitMore.strip.text) :=
  ⟨⟨[.data 91 [34, 195, 169, 195, 169, 34, 44, 34, 92, 34], .data 93 [32, 34, 93]], by decide, by decide, exSplit_meets, by decide +kernel,
    by decide +kernel⟩,
   ⟨[.data 91 [34, 195, 169, 195, 169, 34, 44, 34, 92, 34], .data 32 [44, 34, 93]], by decide, by decide, exSplitMore_meets,
    ⟨trivial, trivial, trivial⟩, by decide +kernel, by decide +kernel, by decide +kernel⟩⟩

/-- **C91, a false part**, and the reason for `Short`: a number that is longer than the buffer is reported twice. -/
theorem C91_long_number : ∃ reader : Reader, reader.Clean ∧ reader.pending = Docs.text [([32], exDigits)] [32] ∧ Docs.Json [([32], exDigits)] [32] ∧
    ¬ (scan 40 100 watch ⟨[], false⟩ ⟨.new reader (List.replicate 8 0), [], exPool⟩).1.baton <+: Docs.events [nameTop] [([32], exDigits)] :=
  ⟨[.data 32 [49, 50, 51, 52, 53, 54, 55, 56, 57, 48, 49, 50, 51, 32]], by decide, by decide, exDigits_json, by decide +kernel⟩

end Verif.Scan
