import Verif.RJiter.StrLemmas
import Verif.RJiter.SkimSpec

/-!
# The contents of a string, byte by byte
-/

namespace Verif.RJiter

/-- The contents of a string, byte by byte: behind `\u` there are four bytes that are neither quote nor backslash. -/
inductive Tidy : Bytes → Prop where
  | nil : Tidy []
  | byte (c : Byte) (r : Bytes) : c ≠ 34 → c ≠ 92 → Tidy r → Tidy (c :: r)
  | esc (e : Byte) (r : Bytes) : (e = 117 → ∃ a b c d t, r = a :: b :: c :: d :: t ∧ ∀ i ∈ [a, b, c, d], i ≠ 34 ∧ i ≠ 92) → Tidy r →
      Tidy (92 :: e :: r)

theorem tidy_plain {r : Bytes} (hr : Tidy r) : ∀ (a : Bytes), (∀ c ∈ a, PlainByte c) → Tidy (a ++ r)
  | [], _ => hr
  | c :: a, h => .byte c _ (h c (by simp)).1 (h c (by simp)).2.1 (tidy_plain hr a fun x hx => h x (by simp [hx]))

theorem RawBody.tidy {body : Bytes} (h : RawBody body) : Tidy body := by
  induction h with
  | nil => exact .nil
  | char ch r hp _ ih => exact tidy_plain ih _ (enc_plain hp)
  | esc e x r he _ ih => exact .esc e r (fun h => absurd h (escape_mem he).2.2.2.1) ih
  | uni a b c d v r hx _ ih =>
    obtain ⟨x, y, z, w, ha, hb, hc, hd, _⟩ := hx
    have hp : ∀ i ∈ [a, b, c, d], PlainByte i := by
      intro i hi
      simp only [List.mem_cons, List.not_mem_nil, or_false] at hi
      rcases hi with rfl | rfl | rfl | rfl
      · exact hex_plain ha
      · exact hex_plain hb
      · exact hex_plain hc
      · exact hex_plain hd
    exact .esc 117 _ (fun _ => ⟨a, b, c, d, r, rfl, fun i hi => ⟨(hp i hi).1, (hp i hi).2.1⟩⟩) (tidy_plain ih [a, b, c, d] hp)

theorem Tidy.tail {c : Byte} {r : Bytes} (h : Tidy (c :: r)) (hc : c ≠ 92) : Tidy r := by
  cases h with
  | byte _ _ _ _ h => exact h
  | esc => exact absurd rfl hc

/-- Two readings of beginnings of the same bytes, the second one up to a quote. -/
theorem Skim.start {wide : Bool} {a : Bytes} (h : Skim wide a) : ∀ {body t t' : Bytes}, Tidy body → a ++ t' = body ++ 34 :: t →
    ∃ z, body = a ++ z := by
  induction h with
  | nil => intro body _ _ _ _; exact ⟨body, rfl⟩
  | byte c r _ h1 h2 _ ih =>
    intro body t t' h0 e
    cases h0 with
    | nil => injection e with e _; exact absurd e h1
    | byte c' r' _ _ h3 =>
      injection e with e1 e2
      obtain ⟨z, k⟩ := ih h3 e2
      exact ⟨z, by rw [e1, k]; rfl⟩
    | esc e' r' _ _ => injection e with e _; exact absurd e h2
  | esc s r _ _ ih =>
    intro body t t' h0 e
    cases h0 with
    | nil => injection e with e _; exact absurd e (by decide)
    | byte c' r' _ h2 _ => injection e with e1 _; exact absurd e1.symm h2
    | esc e' r' _ h3 =>
      injection e with _ e2
      injection e2 with e2 e3
      obtain ⟨z, k⟩ := ih h3 e3
      exact ⟨z, by rw [e2, k]; rfl⟩
  | uni a b c d r _ _ ih =>
    intro body t t' h0 e
    cases h0 with
    | nil => injection e with e _; exact absurd e (by decide)
    | byte c' r' _ h2 _ => injection e with e1 _; exact absurd e1.symm h2
    | esc e' r' h2 h3 =>
      injection e with _ e2
      injection e2 with e2 e3
      obtain ⟨a', b', c', d', t, rfl, hp⟩ := h2 e2.symm
      injection e3 with i1 e3
      injection e3 with i2 e3
      injection e3 with i3 e3
      injection e3 with i4 e3
      subst i1 i2 i3 i4
      have h4 := (((h3.tail (hp _ (by simp)).2).tail (hp _ (by simp)).2).tail (hp _ (by simp)).2).tail (hp _ (by simp)).2
      obtain ⟨z, k⟩ := ih h4 e3
      exact ⟨z, by rw [← e2, k]; rfl⟩

end Verif.RJiter
