import Verif.RJiter.JiterGood

/-!
# Specification of JSON numbers (RFC 8259), and that the model of jiter finds them
-/

namespace Verif.RJiter

/-- `0` ... `9`. -/
def Digit (c : Byte) : Prop := 48 ≤ c.toNat ∧ c.toNat ≤ 57

/-- One or more digits. -/
def Digits (l : Bytes) : Prop := l ≠ [] ∧ ∀ c ∈ l, Digit c

/-- `0`, or digits that do not start with `0`. -/
def IntPart (l : Bytes) : Prop := l = [48] ∨ (Digits l ∧ l.head? ≠ some 48)

/-- Nothing, or a point and digits. -/
def FracPart (l : Bytes) : Prop := l = [] ∨ ∃ ds, l = 46 :: ds ∧ Digits ds

/-- Nothing, or `e`, perhaps a sign, and digits. -/
def ExpPart (l : Bytes) : Prop :=
  l = [] ∨ ∃ e sg ds, l = e :: (sg ++ ds) ∧ (e = 101 ∨ e = 69) ∧ (sg = [] ∨ sg = [43] ∨ sg = [45]) ∧ Digits ds

/-- A JSON number. -/
def Number (l : Bytes) : Prop :=
  ∃ m i f e, l = m ++ (i ++ (f ++ e)) ∧ (m = [] ∨ m = [45]) ∧ IntPart i ∧ FracPart f ∧ ExpPart e

/-- Bytes that do not continue a number. -/
def EndsNumber (t : Bytes) : Prop := ∀ c, t.head? = some c → ¬ Digit c ∧ c ≠ 46 ∧ c ≠ 101 ∧ c ≠ 69

namespace Jiter

theorem isDigit_iff (c : Byte) : isDigit c = true ↔ Digit c := by
  simp only [isDigit, Digit, Bool.and_eq_true, decide_eq_true_eq, UInt8.le_iff_toNat_le]
  exact Iff.rfl

theorem digits_append {ds t : Bytes} (h : ∀ c ∈ ds, Digit c) (ht : ∀ c, t.head? = some c → ¬ Digit c) :
    digits (ds ++ t) = ds.length := by
  simp only [digits]
  rw [List.takeWhile_append_of_pos (fun c hc => (isDigit_iff c).mpr (h c hc))]
  cases t with
  | nil => simp
  | cons c t =>
    have : isDigit c = false := by
      cases hd : isDigit c with
      | false => rfl
      | true => exact absurd ((isDigit_iff c).mp hd) (ht c rfl)
    simp [this]

theorem needDigit_digits {ds : Bytes} (h : Digits ds) (t : Bytes) (i : Nat) : needDigit (ds ++ t) i = .ok () := by
  obtain ⟨h0, h1⟩ := h
  cases ds with
  | nil => exact absurd rfl h0
  | cons c ds =>
    simp only [List.cons_append, needDigit]
    rw [if_pos ((isDigit_iff c).mpr (h1 c (by simp)))]

theorem exponent_spec {sg ds t : Bytes} (hs : sg = [] ∨ sg = [43] ∨ sg = [45]) (hd : Digits ds)
    (ht : ∀ c, t.head? = some c → ¬ Digit c) (i : Nat) :
    exponent (sg ++ ds ++ t) i = .ok (i + (sg ++ ds).length) := by
  have hl : ∀ s, signLen (sg ++ ds ++ t) = s → (sg ++ ds ++ t).drop s = ds ++ t → s = sg.length →
      exponent (sg ++ ds ++ t) i = .ok (i + (sg ++ ds).length) := by
    intro s h1 h2 h3
    rw [exponent_eq, h1, h2, needDigit_digits hd]
    simp only [digits_append hd.2 ht, List.length_append, ← h3]
    congr 1; omega
  rcases hs with rfl | rfl | rfl
  · obtain ⟨h0, h1⟩ := hd
    cases ds with
    | nil => exact absurd rfl h0
    | cons c ds =>
      refine hl 0 ?_ (by simp) rfl
      have hc := h1 c (by simp)
      have : ¬ (c = 43 ∨ c = 45) := by
        rintro (rfl | rfl) <;> simp [Digit] at hc
      simp [signLen, this]
  · exact hl 1 (by simp [signLen]) (by simp) rfl
  · exact hl 1 (by simp [signLen]) (by simp) rfl

theorem numberTail_spec {f e t : Bytes} (hf : FracPart f) (he : ExpPart e) (ht : EndsNumber t) (i : Nat) :
    numberTail (f ++ (e ++ t)) i = .ok (i + (f ++ e).length) := by
  have htd : ∀ c, t.head? = some c → ¬ Digit c := fun c hc => (ht c hc).1
  rcases hf with rfl | ⟨ds, rfl, hd⟩
  · rcases he with rfl | ⟨x, sg, ds, rfl, hx, hsg, hd⟩
    · cases t with
      | nil => rfl
      | cons c t =>
        obtain ⟨_, h1, h2, h3⟩ := ht c rfl
        simp only [List.nil_append, numberTail, if_neg h1]
        rw [if_neg (by simp [h2, h3])]
        simp
    · simp only [List.nil_append, List.cons_append, numberTail]
      rw [if_neg (by rcases hx with rfl | rfl <;> decide), if_pos hx, exponent_spec hsg hd htd]
      simp; omega
  · simp only [List.cons_append, numberTail, if_true, decimal]
    rw [needDigit_digits hd]
    simp only
    rcases he with rfl | ⟨x, sg, es, rfl, hx, hsg, hes⟩
    · rw [List.nil_append, digits_append hd.2 htd, List.drop_left]
      cases t with
      | nil => simp; omega
      | cons c t =>
        obtain ⟨_, h1, h2, h3⟩ := ht c rfl
        simp only
        rw [if_neg (by simp [h2, h3])]
        simp; omega
    · rw [digits_append hd.2 (by
        intro c hc
        simp only [List.cons_append, List.head?_cons, Option.some.injEq] at hc
        subst hc
        rcases hx with rfl | rfl <;> simp [Digit]), List.drop_left]
      simp only [List.cons_append]
      rw [if_pos hx, exponent_spec hsg hes htd]
      simp; omega

theorem number_head {num : Bytes} (h : Number num) : ∃ c t, num = c :: t ∧ (c = 45 ∨ isDigit c = true) := by
  obtain ⟨m, i, f, e, rfl, hm, hi, _, _⟩ := h
  rcases hm with rfl | rfl
  · rcases hi with rfl | ⟨⟨h0, h1⟩, _⟩
    · exact ⟨48, _, rfl, .inr rfl⟩
    · cases i with
      | nil => exact absurd rfl h0
      | cons c i => exact ⟨c, _, rfl, .inr ((isDigit_iff c).mpr (h1 c (by simp)))⟩
  · exact ⟨45, _, rfl, .inl rfl⟩

/-- The end of a number in front of bytes that do not continue it. -/
theorem numberEnd_spec {num t : Bytes} (h : Number num) (ht : EndsNumber t) : numberEnd (num ++ t) = .ok num.length := by
  obtain ⟨m, i, f, e, rfl, hm, hi, hf, he⟩ := h
  have hbody : ∀ s, numBody (i ++ (f ++ (e ++ t))) s = .ok (s + (i ++ (f ++ e)).length) := by
    intro s
    -- what follows the integer part is not a digit
    have hnd : ∀ c, (f ++ (e ++ t)).head? = some c → ¬ Digit c := by
      intro c hc
      rcases hf with rfl | ⟨ds, rfl, _⟩
      · rcases he with rfl | ⟨x, sg, es, rfl, hx, _, _⟩
        · exact (ht c hc).1
        · simp only [List.nil_append, List.cons_append, List.head?_cons, Option.some.injEq] at hc
          subst hc
          rcases hx with rfl | rfl <;> simp [Digit]
      · simp only [List.cons_append, List.head?_cons, Option.some.injEq] at hc
        subst hc; simp [Digit]
    have htail := fun j => numberTail_spec hf he ht j
    rcases hi with rfl | ⟨hd, h48⟩
    · unfold numBody
      simp only [List.cons_append, List.nil_append, needDigit, show isDigit 48 = true from rfl, if_true]
      cases hr : f ++ (e ++ t) with
      | nil =>
        have : (f ++ e).length = 0 := by
          have := congrArg List.length hr
          simp only [List.length_append, List.length_nil] at this ⊢; omega
        simp [this] 
      | cons c r =>
        simp only
        rw [hr] at hnd htail
        rw [if_neg (by intro hh; exact hnd c rfl ((isDigit_iff c).mp hh)), htail]
        simp only [List.length_cons]
        congr 1; omega
    · have h1 : numBody (i ++ (f ++ (e ++ t))) s =
          numberTail ((i ++ (f ++ (e ++ t))).drop (digits (i ++ (f ++ (e ++ t))))) (s + digits (i ++ (f ++ (e ++ t)))) := by
        unfold numBody
        rw [needDigit_digits hd]
        simp only
        split
        · rename_i t' heq
          exfalso
          cases i with
          | nil => exact hd.1 rfl
          | cons c i =>
            simp only [List.cons_append, List.cons.injEq] at heq
            simp [heq.1] at h48
        · rfl
      rw [h1, digits_append hd.2 hnd, List.drop_left, htail, List.length_append (as := i)]
      congr 1; omega
  rw [numberEnd_eq]
  rcases hm with rfl | rfl
  · have : minusLen ([] ++ (i ++ (f ++ e)) ++ t) = 0 := by
      have hne : ∃ c r, i = c :: r ∧ c ≠ 45 := by
        rcases hi with rfl | ⟨⟨h0, h1⟩, _⟩
        · exact ⟨48, [], rfl, by decide⟩
        · cases i with
          | nil => exact absurd rfl h0
          | cons c i =>
            refine ⟨c, i, rfl, ?_⟩
            rintro rfl
            have := h1 45 (by simp)
            simp [Digit] at this
      obtain ⟨c, r, rfl, hc⟩ := hne
      simp [minusLen, hc]
    rw [this, List.drop_zero, List.nil_append, List.append_assoc, List.append_assoc, hbody]
    simp
  · have : minusLen ([45] ++ (i ++ (f ++ e)) ++ t) = 1 := by simp [minusLen]
    rw [this, List.append_assoc, List.append_assoc, List.append_assoc]
    show numBody (i ++ (f ++ (e ++ t))) 1 = _
    rw [hbody]
    simp; omega

theorem numberTok_spec {num t : Bytes} (h : Number num) (ht : EndsNumber t) :
    numberTok (num ++ t) = (num.length, .ok num) := by
  simp only [numberTok, numberEnd_spec h ht, List.take_left]

end Jiter

end Verif.RJiter
