import Verif.Scan.AcceptProps
import Verif.RJiter.Tidy

/-!
# A text of JSON documents has one reading

A text of JSON documents can be read as loose documents (what `scan` lets through, see `LooseDoc`) only in one way, up to the space
between the tokens.
-/

namespace Verif.Scan

open Verif.RJiter
open Verif.RJiter.Jiter

/-! ## Specification -/

/-- Nothing but the rules of JSON. -/
def Rules.plain : Rules := .json (fun _ => True) (fun _ => True) (fun _ _ => True) (fun _ _ _ _ => True)

/-- If the value is a number, then `t` does not continue it. -/
def Val.Clear (t : Bytes) : Val → Prop
  | .atom tok => Number tok → EndsNumber t
  | _ => True

/-- A stream of JSON documents, each behind some space. -/
def Docs.Json : Docs → Bytes → Prop
  | [], tail => Spaces tail
  | (b, v) :: ds, tail => Spaces b ∧ v.Meets .plain ∧ v.Clear (Docs.text ds tail) ∧ Docs.Json ds tail

/-- If the value is a number, then it has at most `L` bytes. -/
def Val.Short (L : Nat) : Val → Prop
  | .atom tok => Number tok → tok.length ≤ L
  | _ => True

/-! ## Tokens -/

/-- Not a byte of space. -/
def Solid (c : Byte) : Prop := ¬ (Space c ∨ c = 12)

theorem solid_of {c : Byte} (h : c ≠ 32 ∧ c ≠ 9 ∧ c ≠ 10 ∧ c ≠ 13 ∧ c ≠ 12) : Solid c := by
  rintro ((h1 | h1 | h1 | h1) | h1) <;> simp_all

theorem blank_split : ∀ {a b x y : Bytes} {c d : Byte}, Blank a → Blank b → Solid c → Solid d → a ++ c :: x = b ++ d :: y →
    a = b ∧ c = d ∧ x = y
  | [], [], _, _, _, _, _, _, _, _, h => by injection h with h1 h2; exact ⟨rfl, h1, h2⟩
  | [], e :: b, _, _, c, _, _, hb, hc, _, h => by
    injection h with h1 _
    exact absurd (h1 ▸ hb e (by simp)) hc
  | e :: a, [], _, _, _, d, ha, _, _, hd, h => by
    injection h with h1 _
    exact absurd (h1 ▸ ha e (by simp)) hd
  | e :: a, f :: b, _, _, _, _, ha, hb, hc, hd, h => by
    injection h with h1 h2
    obtain ⟨k1, k2, k3⟩ := blank_split (fun c hc => ha c (by simp [hc])) (fun c hc => hb c (by simp [hc])) hc hd h2
    exact ⟨by rw [h1, k1], k2, k3⟩

theorem body_unique {wide : Bool} {body : Bytes} (h : Skim wide body) : ∀ {body0 x x' : Bytes}, Tidy body0 →
    body0 ++ 34 :: x = body ++ 34 :: x' → body0 = body ∧ x = x' := by
  induction h with
  | nil =>
    intro body0 x x' h0 e
    cases h0 with
    | nil => injection e with _ e; exact ⟨rfl, e⟩
    | byte c r h1 _ _ => injection e with e _; exact absurd e h1
    | esc e' r _ _ => injection e with e _; exact absurd e (by decide)
  | byte c r _ h1 h2 _ ih =>
    intro body0 x x' h0 e
    cases h0 with
    | nil => injection e with e _; exact absurd e.symm h1
    | byte c' r' _ _ h3 =>
      injection e with e1 e2
      obtain ⟨k1, k2⟩ := ih h3 e2
      exact ⟨by rw [e1, k1], k2⟩
    | esc e' r' _ _ => injection e with e _; exact absurd e.symm h2
  | esc s r _ _ ih =>
    intro body0 x x' h0 e
    cases h0 with
    | nil => injection e with e _; exact absurd e (by decide)
    | byte c' r' _ h2 _ => injection e with e1 e2; exact absurd e1 h2
    | esc e' r' _ h3 =>
      injection e with _ e2
      injection e2 with e2 e3
      obtain ⟨k1, k2⟩ := ih h3 e3
      exact ⟨by rw [e2, k1], k2⟩
  | uni a b c d r _ _ ih =>
    intro body0 x x' h0 e
    cases h0 with
    | nil => injection e with e _; exact absurd e (by decide)
    | byte c' r' _ h2 _ => injection e with e1 e2; exact absurd e1 h2
    | esc e' r' h2 h3 =>
      injection e with _ e2
      injection e2 with e2 e3
      obtain ⟨a', b', c', d', t, rfl, hp⟩ := h2 e2
      injection e3 with i1 e3
      injection e3 with i2 e3
      injection e3 with i3 e3
      injection e3 with i4 e3
      subst i1 i2 i3 i4
      have h4 := (((h3.tail (hp _ (by simp)).2).tail (hp _ (by simp)).2).tail (hp _ (by simp)).2).tail (hp _ (by simp)).2
      obtain ⟨k1, k2⟩ := ih h4 e3
      exact ⟨by rw [e2, k1], k2⟩

/-! ## Inside and outside of strings

A quote that is taken for an escaped one, or the other way round, swaps the inside and the outside of strings from there on. As long as
there is no backslash outside, the text cannot come to its end in this way. -/

/-- What is outside of strings has no backslash, and the contents of the strings meet `B`. -/
inductive Outside (B : Bytes → Prop) : Bytes → Prop where
  | nil : Outside B []
  | byte (c : Byte) (r : Bytes) : c ≠ 34 → c ≠ 92 → Outside B r → Outside B (c :: r)
  | string (body r : Bytes) : B body → Outside B r → Outside B (34 :: (body ++ 34 :: r))

/-- One reading is inside of a string, the other is not. -/
theorem never_swapped : ∀ (k : Nat), (∀ {wb y : Bytes}, (wb ++ 34 :: y).length ≤ k → Outside Tidy (wb ++ 34 :: y) → Weak wb → Outside Weak y → False) ∧
    (∀ {body x : Bytes}, (body ++ 34 :: x).length ≤ k → Outside Weak (body ++ 34 :: x) → Tidy body → Outside Tidy x → False) := by
  intro k
  induction k with
  | zero => exact ⟨fun h => by simp at h, fun h => by simp at h⟩
  | succ k ih =>
    constructor
    · intro wb y hl ho hw hy
      cases hw with
      | nil =>
        generalize hz : [] ++ 34 :: y = z at ho
        cases ho with
        | nil => cases hz
        | byte c r h1 _ _ => injection hz with e _; exact h1 e.symm
        | string body r hb hr =>
          injection hz with _ e
          subst e
          exact ih.2 (by simp at hl ⊢; omega) hy hb hr
      | byte c r h1 hr =>
        generalize hz : c :: r ++ 34 :: y = z at ho
        cases ho with
        | nil => cases hz
        | byte c' r' _ _ hr' =>
          injection hz with _ e
          subst e
          exact ih.1 (by simp at hl ⊢; omega) hr' hr hy
        | string body r' _ _ => injection hz with e _; exact h1 e
      | esc r hr =>
        generalize hz : 92 :: 34 :: r ++ 34 :: y = z at ho
        cases ho with
        | nil => cases hz
        | byte c' r' _ h2 _ => injection hz with e _; exact h2 e.symm
        | string body r' _ _ => injection hz with e _; exact absurd e (by decide)
    · intro body x hl ho hb hx
      cases hb with
      | nil =>
        generalize hz : [] ++ 34 :: x = z at ho
        cases ho with
        | nil => cases hz
        | byte c r h1 _ _ => injection hz with e _; exact h1 e.symm
        | string wb r hw hr =>
          injection hz with _ e
          subst e
          exact ih.1 (by simp at hl ⊢; omega) hx hw hr
      | byte c r h1 _ hr =>
        generalize hz : c :: r ++ 34 :: x = z at ho
        cases ho with
        | nil => cases hz
        | byte c' r' _ _ hr' =>
          injection hz with _ e
          subst e
          exact ih.2 (by simp at hl ⊢; omega) hr' hr hx
        | string wb r' _ _ => injection hz with e _; exact h1 e
      | esc e r _ hr =>
        generalize hz : 92 :: e :: r ++ 34 :: x = z at ho
        cases ho with
        | nil => cases hz
        | byte c' r' _ h2 _ => injection hz with e _; exact h2 e.symm
        | string wb r' _ _ => injection hz with e _; exact absurd e (by decide)

/-- The contents of a string, if all that follows is known; in the second part, one reading is between a backslash and the byte behind it. -/
theorem weak_unique {wb : Bytes} (hw : Weak wb) : ∀ {x y : Bytes}, Outside Tidy x → Outside Weak y →
    (∀ {body : Bytes}, Tidy body → body ++ 34 :: x = wb ++ 34 :: y → body = wb ∧ x = y) ∧
    (∀ {c : Byte} {body : Bytes}, Tidy body → c :: (body ++ 34 :: x) = wb ++ 34 :: y → c :: body = wb ∧ x = y) := by
  induction hw with
  | nil =>
    intro x y hx hy
    constructor
    · intro body hb e
      cases hb with
      | nil => injection e with _ e; exact ⟨rfl, e⟩
      | byte c r h1 _ _ => injection e with e _; exact absurd e h1
      | esc e' r _ _ => injection e with e _; exact absurd e (by decide)
    · intro c body hb e
      injection e with _ e
      subst e
      exact ((never_swapped _).2 (Nat.le_refl _) hy hb hx).elim
  | byte d r h1 hr ih =>
    intro x y hx hy
    constructor
    · intro body hb e
      cases hb with
      | nil => injection e with e _; exact absurd e.symm h1
      | byte c r' _ _ hr' =>
        injection e with e1 e2
        obtain ⟨k1, k2⟩ := (ih hx hy).1 hr' e2
        exact ⟨by rw [e1, k1], k2⟩
      | esc e' r' _ hr' =>
        injection e with e1 e2
        obtain ⟨k1, k2⟩ := (ih hx hy).2 hr' e2
        exact ⟨by rw [e1, k1], k2⟩
    · intro c body hb e
      injection e with e1 e2
      obtain ⟨k1, k2⟩ := (ih hx hy).1 hb e2
      exact ⟨by rw [e1, k1], k2⟩
  | esc r hr ih =>
    intro x y hx hy
    constructor
    · intro body hb e
      cases hb with
      | nil => injection e with e _; exact absurd e (by decide)
      | byte c r' _ h2 _ => injection e with e1 _; exact absurd e1 h2
      | esc e' r' _ hr' =>
        injection e with _ e
        injection e with e1 e2
        obtain ⟨k1, k2⟩ := (ih hx hy).1 hr' e2
        exact ⟨by rw [e1, k1], k2⟩
    · intro c body hb e
      injection e with _ e
      cases hb with
      | nil =>
        injection e with _ e
        subst e
        exact ((never_swapped _).1 (Nat.le_refl _) hx hr hy).elim
      | byte c r' h1 _ _ => injection e with e1 _; exact absurd e1 h1
      | esc e' r' _ _ => injection e with e1 _; exact absurd e1 (by decide)

/-- A text that starts and ends outside of strings. -/
def Closed (B : Bytes → Prop) (t : Bytes) : Prop := ∀ x, Outside B x → Outside B (t ++ x)

section
variable {B : Bytes → Prop}

theorem Closed.nil : Closed B [] := fun _ h => h

theorem Closed.append {a b : Bytes} (ha : Closed B a) (hb : Closed B b) : Closed B (a ++ b) := fun x h => by
  rw [List.append_assoc]; exact ha _ (hb x h)

theorem Closed.byte {c : Byte} {t : Bytes} (h1 : c ≠ 34) (h2 : c ≠ 92) (ht : Closed B t) : Closed B (c :: t) := fun x h =>
  .byte c _ h1 h2 (ht x h)

theorem Closed.plain : ∀ {a : Bytes}, (∀ c ∈ a, c ≠ 34 ∧ c ≠ 92) → Closed B a
  | [], _ => .nil
  | c :: a, h => .byte (h c (by simp)).1 (h c (by simp)).2 (Closed.plain fun d hd => h d (by simp [hd]))

theorem Closed.string {body t : Bytes} (hb : B body) (ht : Closed B t) : Closed B (34 :: (body ++ 34 :: t)) := fun x h => by
  have := Outside.string body _ hb (ht x h)
  simpa using this

theorem Closed.blank {a : Bytes} (h : Blank a) : Closed B a := .plain fun c hc => by
  rcases h c hc with (h | h | h | h) | h <;> subst h <;> decide

theorem Closed.outside {t : Bytes} (h : Closed B t) : Outside B t := by
  have := h [] .nil
  rwa [List.append_nil] at this

end

theorem digit_quiet {c : Byte} (h : Digit c) : c ≠ 34 ∧ c ≠ 92 := by
  unfold Digit at h
  constructor <;> rintro rfl <;> simp at h

theorem Closed.number {B : Bytes → Prop} {tok : Bytes} (h : Number tok) : Closed B tok := by
  have hds : ∀ {ds : Bytes}, Digits ds → Closed B ds := fun h => .plain fun c hc => digit_quiet (h.2 c hc)
  obtain ⟨m, i, f, e, rfl, hm, hi, hf, he⟩ := h
  refine .append ?_ (.append ?_ (.append ?_ ?_))
  · rcases hm with rfl | rfl
    · exact .nil
    · exact .byte (by decide) (by decide) .nil
  · rcases hi with rfl | ⟨hi, _⟩
    · exact .byte (by decide) (by decide) .nil
    · exact hds hi
  · rcases hf with rfl | ⟨ds, rfl, h⟩
    · exact .nil
    · exact .byte (by decide) (by decide) (hds h)
  · rcases he with rfl | ⟨e, sg, ds, rfl, h1, h2, h3⟩
    · exact .nil
    · refine .byte (by rcases h1 with rfl | rfl <;> decide) (by rcases h1 with rfl | rfl <;> decide) (.append ?_ (hds h3))
      rcases h2 with rfl | rfl | rfl
      · exact .nil
      · exact .byte (by decide) (by decide) .nil
      · exact .byte (by decide) (by decide) .nil

theorem number_unique {num num' x x' : Bytes} (h : Number num) (h' : Number num') (hx : EndsNumber x) (hx' : EndsNumber x')
    (e : num ++ x = num' ++ x') : num = num' ∧ x = x' := by
  have h1 := numberEnd_spec h hx
  rw [e, numberEnd_spec h' hx'] at h1
  injection h1 with h1
  exact List.append_inj e h1.symm

theorem endsNumber_of {c : Byte} {t : Bytes} (h : ¬ Digit c ∧ c ≠ 46 ∧ c ≠ 101 ∧ c ≠ 69) : EndsNumber (c :: t) := by
  intro d hd
  injection hd with hd
  rw [← hd]; exact h

theorem endsNumber_blank {a t : Bytes} (ha : Blank a) (ht : EndsNumber t) : EndsNumber (a ++ t) := by
  cases a with
  | nil => exact ht
  | cons c a =>
    refine endsNumber_of ?_
    rcases ha c (by simp) with (h | h | h | h) | h <;> subst h <;> simp [Digit]

section
variable {num str : Bytes → Prop} {key : Bytes → Bytes → Prop} {head : Bytes → Bytes → Bytes → Bytes → Prop} {strict : Prop}

mutual
theorem Val.Meets.closed : ∀ (v : Val), v.Meets (.json num str key head) → Closed Tidy v.text
  | .atom tok, h => by
    cases (show IsAtom num str tok from h) with
    | number _ hn _ => exact .number hn
    | null => exact .plain (by decide)
    | true => exact .plain (by decide)
    | false => exact .plain (by decide)
    | string body hb _ => exact .string (RawBody.tidy hb) .nil
  | .arr w is, h => .byte (by decide) (by decide) (.append (.blank (blank_spaces h.1)) (.append (Items.Meets.closed is h.2) (.plain (by decide))))
  | .obj w ms, h => .byte (by decide) (by decide) (.append (.blank (blank_spaces h.1)) (.append (Members.Meets.closed ms h.2) (.plain (by decide))))
theorem Items.Meets.closed : ∀ (is : Items), is.Meets (.json num str key head) → Closed Tidy is.text
  | .nil, _ => .nil
  | .cons _ v _ more, h => .append (.blank (blank_spaces h.1)) (.append (Val.Meets.closed v h.2.1) (.append (.blank (blank_spaces h.2.2.1))
      (Items.Meets.closedMore more h.2.2.2)))
theorem Items.Meets.closedMore : ∀ (is : Items), is.Meets (.json num str key head) → Closed Tidy is.textMore
  | .nil, _ => .nil
  | .cons _ v _ more, h => .byte (by decide) (by decide) (.append (.blank (blank_spaces h.1)) (.append (Val.Meets.closed v h.2.1)
      (.append (.blank (blank_spaces h.2.2.1)) (Items.Meets.closedMore more h.2.2.2))))
theorem Members.Meets.closed : ∀ (ms : Members), ms.Meets (.json num str key head) → Closed Tidy ms.text
  | .nil, _ => .nil
  | .cons _ _ _ _ v _ more, h => .append (.blank (blank_spaces h.1)) (.string (RawBody.tidy h.2.1.1) (.append (.blank (blank_spaces h.2.2.1))
      (.byte (by decide) (by decide) (.append (.blank (blank_spaces h.2.2.2.1)) (.append (Val.Meets.closed v h.2.2.2.2.1)
        (.append (.blank (blank_spaces h.2.2.2.2.2.2.1)) (Members.Meets.closedMore more h.2.2.2.2.2.2.2)))))))
theorem Members.Meets.closedMore : ∀ (ms : Members), ms.Meets (.json num str key head) → Closed Tidy ms.textMore
  | .nil, _ => .nil
  | .cons _ _ _ _ v _ more, h => .byte (by decide) (by decide) (.append (.blank (blank_spaces h.1)) (.string (RawBody.tidy h.2.1.1)
      (.append (.blank (blank_spaces h.2.2.1)) (.byte (by decide) (by decide) (.append (.blank (blank_spaces h.2.2.2.1))
        (.append (Val.Meets.closed v h.2.2.2.2.1) (.append (.blank (blank_spaces h.2.2.2.2.2.2.1)) (Members.Meets.closedMore more h.2.2.2.2.2.2.2))))))))
end

theorem doubled_closed {w : Bytes} (h : Doubled w) : Closed Weak w := by
  obtain ⟨j, b2, rfl, hj, hb2⟩ := h
  refine .append ?_ (.byte (by decide) (by decide) (.blank (blank_spaces hb2)))
  rcases hj with rfl | ⟨k, sp, rfl, hk, hs⟩
  · exact .nil
  · exact .string hk.weak (.blank (blank_spaces hs))

mutual
theorem Val.Loose.closed : ∀ (v : Val), v.Loose strict → Closed Weak v.text
  | .atom tok, h => by
    cases (show LooseAtom strict tok from h) with
    | number _ hn => exact .number hn
    | null => exact .plain (by decide)
    | true => exact .plain (by decide)
    | false => exact .plain (by decide)
    | string body _ hb => exact .string hb .nil
  | .arr w is, h => .byte (by decide) (by decide) (.append (.blank h.1) (.append (Items.Loose.closed is h.2) (.plain (by decide))))
  | .obj w ms, h => .byte (by decide) (by decide) (.append (h.1.elim .blank fun hd => doubled_closed hd.1)
      (.append (Members.Loose.closed ms h.2) (.plain (by decide))))
theorem Items.Loose.closed : ∀ (is : Items), is.Loose strict → Closed Weak is.text
  | .nil, _ => .nil
  | .cons _ v _ more, h => .append (.blank h.1) (.append (Val.Loose.closed v h.2.2.1) (.append (.blank h.2.2.2.1)
      (Items.Loose.closedMore more h.2.2.2.2)))
theorem Items.Loose.closedMore : ∀ (is : Items), is.Loose strict → Closed Weak is.textMore
  | .nil, _ => .nil
  | .cons _ v _ more, h => .byte (by decide) (by decide) (.append (.blank h.1) (.append (Val.Loose.closed v h.2.2.1)
      (.append (.blank h.2.2.2.1) (Items.Loose.closedMore more h.2.2.2.2))))
theorem Members.Loose.closed : ∀ (ms : Members), ms.Loose strict → Closed Weak ms.text
  | .nil, _ => .nil
  | .cons _ _ _ _ v _ more, h => .append (.blank h.1) (.string h.2.1.weak (.append (.blank (blank_spaces h.2.2.1))
      (.byte (by decide) (by decide) (.append (.blank h.2.2.2.1) (.append (Val.Loose.closed v h.2.2.2.2.1)
        (.append (.blank h.2.2.2.2.2.1) (Members.Loose.closedMore more h.2.2.2.2.2.2)))))))
theorem Members.Loose.closedMore : ∀ (ms : Members), ms.Loose strict → Closed Weak ms.textMore
  | .nil, _ => .nil
  | .cons _ _ _ _ v _ more, h => .byte (by decide) (by decide) (.append (.blank h.1) (.string h.2.1.weak
      (.append (.blank (blank_spaces h.2.2.1)) (.byte (by decide) (by decide) (.append (.blank h.2.2.2.1)
        (.append (Val.Loose.closed v h.2.2.2.2.1) (.append (.blank h.2.2.2.2.2.1) (Members.Loose.closedMore more h.2.2.2.2.2.2))))))))
end

theorem Docs.Json.closed {tail : Bytes} : ∀ (ds : Docs), Docs.Json ds tail → Closed Tidy (Docs.text ds tail)
  | [], h => .blank (blank_spaces h)
  | (_, v) :: ds, h => .append (.blank (blank_spaces h.1)) (.append (Val.Meets.closed v h.2.1) (Docs.Json.closed ds h.2.2.2))

theorem Docs.Json.loose {tail : Bytes} : ∀ {ds : Docs}, Docs.Json ds tail → Docs.Loose strict ds tail
  | [], h => blank_spaces h
  | (_, _) :: _, h => ⟨blank_spaces h.1, (Val.Meets.loose h.2.1).1, Docs.Json.loose h.2.2.2⟩

theorem Docs.Loose.closed {tail : Bytes} : ∀ (ds : Docs), Docs.Loose strict ds tail → Closed Weak (Docs.text ds tail)
  | [], h => .blank h
  | (_, v) :: ds, h => .append (.blank h.1) (.append (Val.Loose.closed v h.2.1) (Docs.Loose.closed ds h.2.2))
end

/-! ## First bytes -/

/-- The first byte of a value. -/
def Start (c : Byte) : Prop := Solid c ∧ c ≠ 93 ∧ c ≠ 125 ∧ c ≠ 44 ∧ c ≠ 58

theorem Start.of_number {num : Bytes} (h : Number num) : ∃ c t, num = c :: t ∧ (c = 45 ∨ isDigit c = true) ∧ Start c := by
  obtain ⟨c, t, e, hc⟩ := number_head h
  refine ⟨c, t, e, hc, ?_⟩
  rcases hc with rfl | hc
  · exact ⟨solid_of (by decide), by decide, by decide, by decide, by decide⟩
  · rw [isDigit_iff] at hc
    have hne : ∀ n : Nat, n < 48 ∨ 57 < n → n < 256 → c ≠ UInt8.ofNat n := by
      rintro n hn hl rfl
      simp only [Digit, UInt8.toNat_ofNat'] at hc
      omega
    exact ⟨solid_of ⟨hne 32 (by decide) (by decide), hne 9 (by decide) (by decide), hne 10 (by decide) (by decide), hne 13 (by decide) (by decide), hne 12 (by decide) (by decide)⟩,
      hne 93 (by decide) (by decide), hne 125 (by decide) (by decide), hne 44 (by decide) (by decide), hne 58 (by decide) (by decide)⟩

theorem Val.Loose.start {strict : Prop} : ∀ {v : Val}, v.Loose strict → ∃ c t, v.text = c :: t ∧ Start c
  | .atom tok, h => by
    cases (show LooseAtom strict tok from h) with
    | number _ h =>
      obtain ⟨c, t, e, _, hs⟩ := Start.of_number h
      exact ⟨c, t, e, hs⟩
    | null => exact ⟨_, _, rfl, solid_of (by decide), by decide, by decide, by decide, by decide⟩
    | true => exact ⟨_, _, rfl, solid_of (by decide), by decide, by decide, by decide, by decide⟩
    | false => exact ⟨_, _, rfl, solid_of (by decide), by decide, by decide, by decide, by decide⟩
    | string body _ => exact ⟨_, _, rfl, solid_of (by decide), by decide, by decide, by decide, by decide⟩
  | .arr _ _, _ => ⟨_, _, rfl, solid_of (by decide), by decide, by decide, by decide, by decide⟩
  | .obj _ _, _ => ⟨_, _, rfl, solid_of (by decide), by decide, by decide, by decide, by decide⟩

/-! ## One reading -/

section
variable {num str : Bytes → Prop} {key : Bytes → Bytes → Prop} {head : Bytes → Bytes → Bytes → Bytes → Prop} {strict : Prop}

theorem number_not {c : Byte} {t x x' num : Bytes} (h : Number num) (hc : c ≠ 45 ∧ isDigit c = false) (e : num ++ x = c :: t ++ x') : False := by
  obtain ⟨d, u, rfl, hd⟩ := number_head h
  injection e with e _
  subst e
  rcases hd with rfl | hd
  · exact hc.1 rfl
  · rw [hc.2] at hd; cases hd

/-- The strings were looked at properly, or all that follows is known. -/
def Sure (strict : Prop) (x x' : Bytes) : Prop := strict ∨ Outside Tidy x ∧ Outside Weak x'

theorem Sure.front {strict : Prop} {a a' x x' : Bytes} (h : Sure strict x x') (ha : Closed Tidy a) (ha' : Closed Weak a') :
    Sure strict (a ++ x) (a' ++ x') := h.imp id fun h => ⟨ha _ h.1, ha' _ h.2⟩

theorem atom_unique {tok tok' x x' : Bytes} (h : IsAtom num str tok) (h' : LooseAtom strict tok') (hq : Sure strict x x') (hx : Number tok → EndsNumber x)
    (hx' : Number tok' → EndsNumber x') (e : tok ++ x = tok' ++ x') : tok = tok' ∧ x = x' := by
  cases h with
  | number _ hn _ =>
    cases h' with
    | number _ hn' => exact number_unique hn hn' (hx hn) (hx' hn') e
    | null => exact (number_not hn (by decide) e).elim
    | true => exact (number_not hn (by decide) e).elim
    | false => exact (number_not hn (by decide) e).elim
    | string => exact (number_not hn (by decide) e).elim
  | null =>
    cases h' with
    | number _ hn' => exact (number_not hn' (by decide) e.symm).elim
    | null => simp at e; exact ⟨rfl, e⟩
    | true => simp at e
    | false => simp at e
    | string => simp at e
  | true =>
    cases h' with
    | number _ hn' => exact (number_not hn' (by decide) e.symm).elim
    | null => simp at e
    | true => simp at e; exact ⟨rfl, e⟩
    | false => simp at e
    | string => simp at e
  | false =>
    cases h' with
    | number _ hn' => exact (number_not hn' (by decide) e.symm).elim
    | null => simp at e
    | true => simp at e
    | false => simp at e; exact ⟨rfl, e⟩
    | string => simp at e
  | string body hb _ =>
    cases h' with
    | number _ hn' => exact (number_not hn' (by decide) e.symm).elim
    | null => simp at e
    | true => simp at e
    | false => simp at e
    | string body' hb' hw =>
      simp only [List.cons_append, List.append_assoc, List.nil_append, List.cons.injEq, true_and] at e
      rcases hq with hq | hq
      · obtain ⟨k1, k2⟩ := body_unique (hb' hq) (RawBody.tidy hb) e
        exact ⟨by rw [k1], k2⟩
      · obtain ⟨k1, k2⟩ := (weak_unique hw hq.1 hq.2).1 (RawBody.tidy hb) e
        exact ⟨by rw [k1], k2⟩

theorem quote_solid : Solid 34 := solid_of (by decide)
theorem colon_solid : Solid 58 := solid_of (by decide)
theorem comma_solid : Solid 44 := solid_of (by decide)
theorem bracket_solid : Solid 93 := solid_of (by decide)
theorem brace_solid : Solid 125 := solid_of (by decide)
theorem open_solid : Solid 123 := solid_of (by decide)

theorem not_blank_split {P : Prop} {a b x y : Bytes} {c d : Byte} (ha : Blank a) (hb : Blank b) (hc : Solid c) (hd : Solid d) (hn : c ≠ d)
    (e : a ++ c :: x = b ++ d :: y) : P := absurd (blank_split ha hb hc hd e).2.1 hn

theorem Items.endsBlank {strict : Prop} {a x : Bytes} (ha : Blank a) : ∀ (more : Items), more.Loose strict → EndsNumber (a ++ (more.textMore ++ 93 :: x))
  | .nil, _ => endsNumber_blank ha (endsNumber_of (by simp [Digit]))
  | .cons _ _ _ _, _ => endsNumber_blank ha (endsNumber_of (by simp [Digit]))

theorem Members.endsBlank {strict : Prop} {a x : Bytes} (ha : Blank a) : ∀ (more : Members), more.Loose strict → EndsNumber (a ++ (more.textMore ++ 125 :: x))
  | .nil, _ => endsNumber_blank ha (endsNumber_of (by simp [Digit]))
  | .cons _ _ _ _ _ _ _, _ => endsNumber_blank ha (endsNumber_of (by simp [Digit]))

theorem clear_of {v : Val} {t : Bytes} (h : EndsNumber t) : v.Clear t := by
  cases v with
  | atom => exact fun _ => h
  | arr => trivial
  | obj => trivial

/-- A second brace is not JSON. -/
theorem not_doubled {w w' x y : Bytes} {ms : Members} (hw : Spaces w) (hms : ms.Meets (.json num str key head)) (hd : Doubled w')
    (e : w ++ (ms.text ++ 125 :: x) = w' ++ y) : False := by
  have hbw := blank_spaces hw
  obtain ⟨j, b2, rfl, hj, hb2⟩ := hd
  cases ms with
  | nil =>
    rcases hj with rfl | ⟨k, sp, rfl, _, _⟩
    · exact not_blank_split hbw (List.forall_mem_nil _) brace_solid open_solid (by decide)
        (show w ++ 125 :: x = [] ++ 123 :: (b2 ++ y) from by simpa [Members.text] using e)
    · exact not_blank_split hbw (List.forall_mem_nil _) brace_solid quote_solid (by decide)
        (show w ++ 125 :: x = [] ++ 34 :: (k ++ 34 :: (sp ++ 123 :: (b2 ++ y))) from by simpa [Members.text] using e)
  | cons b k0 m m' v a more =>
    obtain ⟨hb, hk, hm, _⟩ := hms
    have hbb := hbw.append (blank_spaces hb)
    rcases hj with rfl | ⟨k, sp, rfl, hsk, hsp⟩
    · exact not_blank_split hbb (List.forall_mem_nil _) quote_solid open_solid (by decide)
        (show (w ++ b) ++ 34 :: (k0 ++ 34 :: (m ++ 58 :: (m' ++ (v.text ++ (a ++ (more.textMore ++ 125 :: x)))))) = [] ++ 123 :: (b2 ++ y) from by
          simpa [Members.text] using e)
    · obtain ⟨_, _, e⟩ := blank_split hbb (List.forall_mem_nil _) quote_solid quote_solid
        (show (w ++ b) ++ 34 :: (k0 ++ 34 :: (m ++ 58 :: (m' ++ (v.text ++ (a ++ (more.textMore ++ 125 :: x)))))) =
          [] ++ 34 :: (k ++ 34 :: (sp ++ 123 :: (b2 ++ y))) from by simpa [Members.text] using e)
      obtain ⟨_, e⟩ := body_unique hsk (RawBody.tidy hk.1) e
      exact not_blank_split (blank_spaces hm) (blank_spaces hsp) colon_solid open_solid (by decide) e

theorem Sure.items {x x' s s' : Bytes} {more more' : Items} (hq : Sure strict x x') (h1 : Spaces s) (h2 : more.Meets (.json num str key head))
    (h3 : Blank s') (h4 : more'.Loose strict) : Sure strict (s ++ (more.textMore ++ 93 :: x)) (s' ++ (more'.textMore ++ 93 :: x')) :=
  ((hq.front (.plain (a := [93]) (by decide)) (.plain (a := [93]) (by decide))).front (Items.Meets.closedMore _ h2)
    (Items.Loose.closedMore _ h4)).front (.blank (blank_spaces h1)) (.blank h3)

theorem Sure.members {x x' s s' : Bytes} {more more' : Members} (hq : Sure strict x x') (h1 : Spaces s) (h2 : more.Meets (.json num str key head))
    (h3 : Blank s') (h4 : more'.Loose strict) : Sure strict (s ++ (more.textMore ++ 125 :: x)) (s' ++ (more'.textMore ++ 125 :: x')) :=
  ((hq.front (.plain (a := [125]) (by decide)) (.plain (a := [125]) (by decide))).front (Members.Meets.closedMore _ h2)
    (Members.Loose.closedMore _ h4)).front (.blank (blank_spaces h1)) (.blank h3)

mutual
theorem Val.unique : ∀ (v v' : Val) {x x' : Bytes}, v.Meets (.json num str key head) → v'.Loose strict → Sure strict x x' → v.Clear x → v'.Clear x' →
    v.text ++ x = v'.text ++ x' → v'.strip = v.strip ∧ x' = x
  | .atom tok, .atom tok', x, x', h, h', hq, hx, hx', e => by
    obtain ⟨rfl, rfl⟩ := atom_unique h h' hq hx hx' e
    exact ⟨rfl, rfl⟩
  | .atom tok, .arr w is, x, x', h, _, hq, _, _, e => by
    simp only [Val.text] at e
    cases (show IsAtom num str tok from h) with
    | number _ hn _ => exact (number_not hn (by decide) e).elim
    | null => simp at e
    | true => simp at e
    | false => simp at e
    | string => simp at e
  | .atom tok, .obj w is, x, x', h, _, hq, _, _, e => by
    simp only [Val.text] at e
    cases (show IsAtom num str tok from h) with
    | number _ hn _ => exact (number_not hn (by decide) e).elim
    | null => simp at e
    | true => simp at e
    | false => simp at e
    | string => simp at e
  | .arr w is, .atom tok, x, x', _, h', hq, _, _, e => by
    simp only [Val.text] at e
    cases (show LooseAtom strict tok from h') with
    | number _ hn => exact (number_not hn (by decide) e.symm).elim
    | null => simp at e
    | true => simp at e
    | false => simp at e
    | string => simp at e
  | .arr w is, .arr w' is', x, x', h, h', hq, _, _, e => by
    simp only [Val.text, List.cons_append, List.append_assoc, List.nil_append, List.cons.injEq, true_and] at e
    obtain ⟨k1, k2⟩ := Items.unique is is' h.2 h'.2 hq (blank_spaces h.1) h'.1 e
    exact ⟨by simp only [Val.strip, k1], k2⟩
  | .arr w is, .obj w' ms, x, x', _, _, hq, _, _, e => by simp [Val.text] at e
  | .obj w ms, .atom tok, x, x', _, h', hq, _, _, e => by
    simp only [Val.text] at e
    cases (show LooseAtom strict tok from h') with
    | number _ hn => exact (number_not hn (by decide) e.symm).elim
    | null => simp at e
    | true => simp at e
    | false => simp at e
    | string => simp at e
  | .obj w ms, .arr w' is, x, x', _, _, hq, _, _, e => by simp [Val.text] at e
  | .obj w ms, .obj w' ms', x, x', h, h', hq, _, _, e => by
    simp only [Val.text, List.cons_append, List.append_assoc, List.nil_append, List.cons.injEq, true_and] at e
    rcases h'.1 with hw' | hd
    · obtain ⟨k1, k2⟩ := Members.unique ms ms' h.2 h'.2 hq (blank_spaces h.1) hw' e
      exact ⟨by simp only [Val.strip, k1], k2⟩
    · exact (not_doubled h.1 h.2 hd.1 e).elim

theorem Items.unique : ∀ (is is' : Items) {a a' x x' : Bytes}, is.Meets (.json num str key head) → is'.Loose strict → Sure strict x x' → Blank a → Blank a' →
    a ++ (is.text ++ 93 :: x) = a' ++ (is'.text ++ 93 :: x') → is'.strip = is.strip ∧ x' = x
  | .nil, .nil, a, a', x, x', _, _, hq, ha, ha', e => by
    obtain ⟨_, _, k⟩ := blank_split ha ha' bracket_solid bracket_solid e
    exact ⟨rfl, k.symm⟩
  | .nil, .cons b v s more, a, a', x, x', _, h', hq, ha, ha', e => by
    obtain ⟨c, t, ev, hs⟩ := h'.2.2.1.start
    exact not_blank_split ha (ha'.append h'.1) bracket_solid hs.1 hs.2.1.symm
      (show a ++ 93 :: x = (a' ++ b) ++ c :: (t ++ (s ++ (more.textMore ++ 93 :: x'))) from by simpa [Items.text, ev] using e)
  | .cons b v s more, .nil, a, a', x, x', h, _, hq, ha, ha', e => by
    obtain ⟨c, t, ev, hs⟩ := (Val.Meets.loose (strict := True) h.2.1).1.start
    exact not_blank_split (ha.append (blank_spaces h.1)) ha' hs.1 bracket_solid hs.2.1
      (show (a ++ b) ++ c :: (t ++ (s ++ (more.textMore ++ 93 :: x))) = a' ++ 93 :: x' from by simpa [Items.text, ev] using e)
  | .cons b v s more, .cons b' v' s' more', a, a', x, x', h, h', hq, ha, ha', e => by
    obtain ⟨c, t, ev, hs⟩ := (Val.Meets.loose (strict := True) h.2.1).1.start
    obtain ⟨c', t', ev', hs'⟩ := h'.2.2.1.start
    obtain ⟨_, k1, k2⟩ := blank_split (ha.append (blank_spaces h.1)) (ha'.append h'.1) hs.1 hs'.1
      (show (a ++ b) ++ c :: (t ++ (s ++ (more.textMore ++ 93 :: x))) = (a' ++ b') ++ c' :: (t' ++ (s' ++ (more'.textMore ++ 93 :: x'))) from by
        simpa [Items.text, ev, ev'] using e)
    have e2 : v.text ++ (s ++ (more.textMore ++ 93 :: x)) = v'.text ++ (s' ++ (more'.textMore ++ 93 :: x')) := by
      rw [ev, ev', k1]; simp [k2]
    obtain ⟨j1, j2⟩ := Val.unique v v' h.2.1 h'.2.2.1 (hq.items h.2.2.1 h.2.2.2 h'.2.2.2.1 h'.2.2.2.2)
      (clear_of (Items.endsBlank (strict := True) (blank_spaces h.2.2.1) more (Items.Meets.loose h.2.2.2)))
      (clear_of (Items.endsBlank h'.2.2.2.1 more' h'.2.2.2.2)) e2
    obtain ⟨i1, i2⟩ := Items.uniqueMore more more' h.2.2.2 h'.2.2.2.2 hq (blank_spaces h.2.2.1) h'.2.2.2.1 j2.symm
    exact ⟨by simp only [Items.strip, j1, i1], i2⟩

theorem Items.uniqueMore : ∀ (is is' : Items) {a a' x x' : Bytes}, is.Meets (.json num str key head) → is'.Loose strict → Sure strict x x' → Blank a → Blank a' →
    a ++ (is.textMore ++ 93 :: x) = a' ++ (is'.textMore ++ 93 :: x') → is'.strip = is.strip ∧ x' = x
  | .nil, .nil, a, a', x, x', _, _, hq, ha, ha', e => by
    obtain ⟨_, _, k⟩ := blank_split ha ha' bracket_solid bracket_solid e
    exact ⟨rfl, k.symm⟩
  | .nil, .cons b v s more, a, a', x, x', _, h', hq, ha, ha', e => by
    exact not_blank_split ha ha' bracket_solid comma_solid (by decide)
      (show a ++ 93 :: x = a' ++ 44 :: (b ++ (v.text ++ (s ++ (more.textMore ++ 93 :: x')))) from by simpa [Items.textMore] using e)
  | .cons b v s more, .nil, a, a', x, x', h, _, hq, ha, ha', e => by
    exact not_blank_split ha ha' comma_solid bracket_solid (by decide)
      (show a ++ 44 :: (b ++ (v.text ++ (s ++ (more.textMore ++ 93 :: x)))) = a' ++ 93 :: x' from by simpa [Items.textMore] using e)
  | .cons b v s more, .cons b' v' s' more', a, a', x, x', h, h', hq, ha, ha', e => by
    obtain ⟨_, _, k⟩ := blank_split ha ha' comma_solid comma_solid
      (show a ++ 44 :: (b ++ (v.text ++ (s ++ (more.textMore ++ 93 :: x)))) = a' ++ 44 :: (b' ++ (v'.text ++ (s' ++ (more'.textMore ++ 93 :: x')))) from by
        simpa [Items.textMore] using e)
    obtain ⟨c, t, ev, hs⟩ := (Val.Meets.loose (strict := True) h.2.1).1.start
    obtain ⟨c', t', ev', hs'⟩ := h'.2.2.1.start
    obtain ⟨_, k1, k2⟩ := blank_split (blank_spaces h.1) h'.1 hs.1 hs'.1
      (show b ++ c :: (t ++ (s ++ (more.textMore ++ 93 :: x))) = b' ++ c' :: (t' ++ (s' ++ (more'.textMore ++ 93 :: x'))) from by
        simpa [ev, ev'] using k)
    have e2 : v.text ++ (s ++ (more.textMore ++ 93 :: x)) = v'.text ++ (s' ++ (more'.textMore ++ 93 :: x')) := by
      rw [ev, ev', k1]; simp [k2]
    obtain ⟨j1, j2⟩ := Val.unique v v' h.2.1 h'.2.2.1 (hq.items h.2.2.1 h.2.2.2 h'.2.2.2.1 h'.2.2.2.2)
      (clear_of (Items.endsBlank (strict := True) (blank_spaces h.2.2.1) more (Items.Meets.loose h.2.2.2)))
      (clear_of (Items.endsBlank h'.2.2.2.1 more' h'.2.2.2.2)) e2
    obtain ⟨i1, i2⟩ := Items.uniqueMore more more' h.2.2.2 h'.2.2.2.2 hq (blank_spaces h.2.2.1) h'.2.2.2.1 j2.symm
    exact ⟨by simp only [Items.strip, j1, i1], i2⟩

theorem Members.unique : ∀ (ms ms' : Members) {a a' x x' : Bytes}, ms.Meets (.json num str key head) → ms'.Loose strict → Sure strict x x' → Blank a → Blank a' →
    a ++ (ms.text ++ 125 :: x) = a' ++ (ms'.text ++ 125 :: x') → ms'.strip = ms.strip ∧ x' = x
  | .nil, .nil, a, a', x, x', _, _, hq, ha, ha', e => by
    obtain ⟨_, _, k⟩ := blank_split ha ha' brace_solid brace_solid e
    exact ⟨rfl, k.symm⟩
  | .nil, .cons b k m m' v s more, a, a', x, x', _, h', hq, ha, ha', e => by
    exact not_blank_split ha (ha'.append h'.1) brace_solid quote_solid (by decide)
      (show a ++ 125 :: x = (a' ++ b) ++ 34 :: (k ++ 34 :: (m ++ 58 :: (m' ++ (v.text ++ (s ++ (more.textMore ++ 125 :: x')))))) from by
        simpa [Members.text] using e)
  | .cons b k m m' v s more, .nil, a, a', x, x', h, _, hq, ha, ha', e => by
    exact not_blank_split (ha.append (blank_spaces h.1)) ha' quote_solid brace_solid (by decide)
      (show (a ++ b) ++ 34 :: (k ++ 34 :: (m ++ 58 :: (m' ++ (v.text ++ (s ++ (more.textMore ++ 125 :: x)))))) = a' ++ 125 :: x' from by
        simpa [Members.text] using e)
  | .cons b k m n v s more, .cons b' k' m' n' v' s' more', a, a', x, x', h, h', hq, ha, ha', e => by
    obtain ⟨hb, hk, hm, hn, hv, _, hs, hmore⟩ := h
    obtain ⟨hb', hk', hm', hn', hv', hs', hmore'⟩ := h'
    obtain ⟨_, _, e1⟩ := blank_split (ha.append (blank_spaces hb)) (ha'.append hb') quote_solid quote_solid
      (show (a ++ b) ++ 34 :: (k ++ 34 :: (m ++ 58 :: (n ++ (v.text ++ (s ++ (more.textMore ++ 125 :: x)))))) =
        (a' ++ b') ++ 34 :: (k' ++ 34 :: (m' ++ 58 :: (n' ++ (v'.text ++ (s' ++ (more'.textMore ++ 125 :: x')))))) from by
        simpa [Members.text] using e)
    obtain ⟨ek, e2⟩ := body_unique hk' (RawBody.tidy hk.1) e1
    obtain ⟨_, _, e3⟩ := blank_split (blank_spaces hm) (blank_spaces hm') colon_solid colon_solid e2
    obtain ⟨c, t, ev, st⟩ := (Val.Meets.loose (strict := True) hv).1.start
    obtain ⟨c', t', ev', st'⟩ := hv'.start
    obtain ⟨_, k1, k2⟩ := blank_split (blank_spaces hn) hn' st.1 st'.1
      (show n ++ c :: (t ++ (s ++ (more.textMore ++ 125 :: x))) = n' ++ c' :: (t' ++ (s' ++ (more'.textMore ++ 125 :: x'))) from by
        simpa [ev, ev'] using e3)
    have e4 : v.text ++ (s ++ (more.textMore ++ 125 :: x)) = v'.text ++ (s' ++ (more'.textMore ++ 125 :: x')) := by
      rw [ev, ev', k1]; simp [k2]
    obtain ⟨j1, j2⟩ := Val.unique v v' hv hv' (hq.members hs hmore hs' hmore')
      (clear_of (Members.endsBlank (strict := True) (blank_spaces hs) more (Members.Meets.loose hmore)))
      (clear_of (Members.endsBlank hs' more' hmore')) e4
    obtain ⟨i1, i2⟩ := Members.uniqueMore more more' hmore hmore' hq (blank_spaces hs) hs' j2.symm
    exact ⟨by simp only [Members.strip, j1, i1, ek], i2⟩

theorem Members.uniqueMore : ∀ (ms ms' : Members) {a a' x x' : Bytes}, ms.Meets (.json num str key head) → ms'.Loose strict → Sure strict x x' → Blank a → Blank a' →
    a ++ (ms.textMore ++ 125 :: x) = a' ++ (ms'.textMore ++ 125 :: x') → ms'.strip = ms.strip ∧ x' = x
  | .nil, .nil, a, a', x, x', _, _, hq, ha, ha', e => by
    obtain ⟨_, _, k⟩ := blank_split ha ha' brace_solid brace_solid e
    exact ⟨rfl, k.symm⟩
  | .nil, .cons b k m m' v s more, a, a', x, x', _, h', hq, ha, ha', e => by
    exact not_blank_split ha ha' brace_solid comma_solid (by decide)
      (show a ++ 125 :: x = a' ++ 44 :: (b ++ 34 :: (k ++ 34 :: (m ++ 58 :: (m' ++ (v.text ++ (s ++ (more.textMore ++ 125 :: x'))))))) from by
        simpa [Members.textMore] using e)
  | .cons b k m m' v s more, .nil, a, a', x, x', h, _, hq, ha, ha', e => by
    exact not_blank_split ha ha' comma_solid brace_solid (by decide)
      (show a ++ 44 :: (b ++ 34 :: (k ++ 34 :: (m ++ 58 :: (m' ++ (v.text ++ (s ++ (more.textMore ++ 125 :: x))))))) = a' ++ 125 :: x' from by
        simpa [Members.textMore] using e)
  | .cons b k m n v s more, .cons b' k' m' n' v' s' more', a, a', x, x', h, h', hq, ha, ha', e => by
    obtain ⟨hb, hk, hm, hn, hv, _, hs, hmore⟩ := h
    obtain ⟨hb', hk', hm', hn', hv', hs', hmore'⟩ := h'
    obtain ⟨_, _, e0⟩ := blank_split ha ha' comma_solid comma_solid
      (show a ++ 44 :: (b ++ 34 :: (k ++ 34 :: (m ++ 58 :: (n ++ (v.text ++ (s ++ (more.textMore ++ 125 :: x))))))) =
        a' ++ 44 :: (b' ++ 34 :: (k' ++ 34 :: (m' ++ 58 :: (n' ++ (v'.text ++ (s' ++ (more'.textMore ++ 125 :: x'))))))) from by
        simpa [Members.textMore] using e)
    obtain ⟨_, _, e1⟩ := blank_split (blank_spaces hb) hb' quote_solid quote_solid e0
    obtain ⟨ek, e2⟩ := body_unique hk' (RawBody.tidy hk.1) e1
    obtain ⟨_, _, e3⟩ := blank_split (blank_spaces hm) (blank_spaces hm') colon_solid colon_solid e2
    obtain ⟨c, t, ev, st⟩ := (Val.Meets.loose (strict := True) hv).1.start
    obtain ⟨c', t', ev', st'⟩ := hv'.start
    obtain ⟨_, k1, k2⟩ := blank_split (blank_spaces hn) hn' st.1 st'.1
      (show n ++ c :: (t ++ (s ++ (more.textMore ++ 125 :: x))) = n' ++ c' :: (t' ++ (s' ++ (more'.textMore ++ 125 :: x'))) from by
        simpa [ev, ev'] using e3)
    have e4 : v.text ++ (s ++ (more.textMore ++ 125 :: x)) = v'.text ++ (s' ++ (more'.textMore ++ 125 :: x')) := by
      rw [ev, ev', k1]; simp [k2]
    obtain ⟨j1, j2⟩ := Val.unique v v' hv hv' (hq.members hs hmore hs' hmore')
      (clear_of (Members.endsBlank (strict := True) (blank_spaces hs) more (Members.Meets.loose hmore)))
      (clear_of (Members.endsBlank hs' more' hmore')) e4
    obtain ⟨i1, i2⟩ := Members.uniqueMore more more' hmore hmore' hq (blank_spaces hs) hs' j2.symm
    exact ⟨by simp only [Members.strip, j1, i1, ek], i2⟩
end

/-- A document at the top, where a number may be cut if it fills the buffer. -/
theorem Val.unique_top {v v' : Val} {L : Nat} {b b' x x' : Bytes} (h : v.Meets (.json num str key head)) (h' : v'.Loose strict) (hq : Sure strict x x') (hx : v.Clear x)
    (hx' : v'.Parted L x') (hs : v.Short L ∨ ∀ tok, v' ≠ .atom tok) (hb : Blank b) (hb' : Blank b') (e : b ++ (v.text ++ x) = b' ++ (v'.text ++ x')) :
    v'.strip = v.strip ∧ x' = x := by
  obtain ⟨c, t, ev, st⟩ := (Val.Meets.loose (strict := True) h).1.start
  obtain ⟨c', t', ev', st'⟩ := h'.start
  obtain ⟨_, k1, k2⟩ := blank_split hb hb' st.1 st'.1
    (show b ++ c :: (t ++ x) = b' ++ c' :: (t' ++ x') from by simpa [ev, ev'] using e)
  have e : v.text ++ x = v'.text ++ x' := by rw [ev, ev', k1]; simp [k2]
  cases v' with
  | arr => exact Val.unique _ _ h h' hq hx trivial e
  | obj => exact Val.unique _ _ h h' hq hx trivial e
  | atom tok' =>
    by_cases hn : Number tok'
    · cases v with
      | arr => exact (number_not hn (by decide) e.symm).elim
      | obj => exact (number_not hn (by decide) e.symm).elim
      | atom tok =>
        cases (show IsAtom num str tok from h) with
        | null => exact (number_not hn (by decide) e.symm).elim
        | true => exact (number_not hn (by decide) e.symm).elim
        | false => exact (number_not hn (by decide) e.symm).elim
        | string => exact (number_not hn (by decide) e.symm).elim
        | number _ hn0 _ =>
          simp only [Val.text] at e
          rcases List.append_eq_append_iff.mp e with ⟨a, rfl, ha⟩ | ⟨a, rfl, ha⟩
          · -- the second is longer
            by_cases h0 : a = []
            · subst h0; simp at ha; subst ha; exact ⟨by simp, rfl⟩
            · exfalso
              have hends : EndsNumber a := by
                intro c hc
                refine hx hn0 c ?_
                rw [ha]
                cases a with
                | nil => cases hc
                | cons d a => exact hc
              have h1 := numberEnd_spec hn0 hends
              have h2 := numberEnd_spec hn (t := []) (by intro c hc; cases hc)
              rw [List.append_nil, h1] at h2
              injection h2 with h2
              simp at h2
              exact h0 h2
          · by_cases h0 : a = []
            · subst h0; simp at ha; subst ha; exact ⟨by simp, rfl⟩
            · exfalso
              rcases hx' hn with hp | hp
              · cases a with
                | nil => exact h0 rfl
                | cons c a => exact hp c (a ++ x) a ha hn0
              · have := (hs.resolve_right fun h => h _ rfl) hn0
                simp only [List.length_append] at this
                exact h0 (List.eq_nil_of_length_eq_zero (by omega))
    · exact Val.unique _ _ h h' hq hx (fun h => absurd h hn) e

end

/-- A text of JSON documents has one reading as loose documents. -/
theorem Docs.unique {strict : Prop} {L : Nat} {tail tail' : Bytes} : ∀ {ds ds' : Docs}, Docs.Json ds tail → (∀ d ∈ ds, d.2.Short L) ∨ (∀ d ∈ ds', ∀ tok, d.2 ≠ .atom tok) → Docs.Loose strict ds' tail' →
    Docs.Parted L ds' tail' → Docs.text ds tail = Docs.text ds' tail' → ds'.map (·.2.strip) = ds.map (·.2.strip)
  | [], [], _, _, _, _, _ => rfl
  | [], (b, v) :: ds', h, _, h', _, e => by
    obtain ⟨c, t, ev, st⟩ := h'.2.1.start
    have : c ∈ tail := by
      rw [show tail = b ++ (v.text ++ Docs.text ds' tail') from e, ev]; simp
    exact absurd (.inl (h c this)) st.1
  | (b, v) :: ds, [], h, _, h', _, e => by
    obtain ⟨c, t, ev, st⟩ := (Val.Meets.loose (strict := True) h.2.1).1.start
    have : c ∈ tail' := by
      rw [show tail' = b ++ (v.text ++ Docs.text ds tail) from e.symm, ev]; simp
    exact absurd (h' c this) st.1
  | (b, v) :: ds, (b', v') :: ds', h, hs, h', hp, e => by
    obtain ⟨k1, k2⟩ := Val.unique_top h.2.1 h'.2.1 (.inr ⟨(Docs.Json.closed _ h.2.2.2).outside, (Docs.Loose.closed _ h'.2.2).outside⟩) h.2.2.1 hp.1 (hs.imp (fun h => h (b, v) (by simp)) fun h => h (b', v') (by simp)) (blank_spaces h.1) h'.1 e
    have := Docs.unique h.2.2.2 (hs.imp (fun h d hd => h d (by simp [hd])) fun h d hd => h d (by simp [hd])) h'.2.2 hp.2 k2.symm
    simp [k1, this]

end Verif.Scan
