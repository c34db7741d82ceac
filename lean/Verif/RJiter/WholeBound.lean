import Verif.RJiter.Sound
import Verif.RJiter.WholeFuel

/-!
# The functions that read a whole value: a success is a move forward
-/

namespace Verif.RJiter

open RJ (JSound)

namespace Jiter

variable {α β γ : Type} {D : Decoders} {B : Build α}

theorem bind_eq_ok {f : JFn β} {g : β → JFn γ} {d : Bytes} {n : Nat} {w : γ} (h : f.bind g d = (n, .ok w)) :
    ∃ i j v, f d = (i, .ok v) ∧ g v (d.drop i) = (j, .ok w) ∧ n = i + j := by
  unfold JFn.bind at h
  rcases hf : f d with ⟨i, x⟩
  rw [hf] at h
  cases x with
  | error e => simp at h
  | ok v =>
    rcases hg : g v (d.drop i) with ⟨j, y⟩
    simp only [hg] at h
    cases y with
    | error e => simp at h
    | ok w' =>
      simp only [Prod.mk.injEq, Except.ok.injEq] at h
      obtain ⟨rfl, rfl⟩ := h
      exact ⟨i, j, v, rfl, hg, rfl⟩

theorem map_eq_ok {f : JFn β} {g : β → γ} {d : Bytes} {n : Nat} {w : γ} (h : f.map g d = (n, .ok w)) :
    ∃ v, f d = (n, .ok v) ∧ w = g v := by
  obtain ⟨i, j, v, h1, h2, rfl⟩ := bind_eq_ok h
  simp only [JFn.pure, Prod.mk.injEq, Except.ok.injEq] at h2
  obtain ⟨rfl, rfl⟩ := h2
  exact ⟨v, h1, rfl⟩

/-- A success takes no more than there is. -/
def TakesLe (f : JFn β) : Prop := ∀ d n v, f d = (n, .ok v) → n ≤ d.length

theorem TakesLe.bind {f : JFn β} {g : β → JFn γ} (hf : TakesLe f) (hg : ∀ v, TakesLe (g v)) : TakesLe (f.bind g) := by
  intro d n w h
  obtain ⟨i, j, v, h1, h2, rfl⟩ := bind_eq_ok h
  have := hf _ _ _ h1
  have := hg _ _ _ _ h2
  rw [List.length_drop] at this
  omega

theorem TakesLe.pure (v : β) : TakesLe (JFn.pure v) := by
  intro d n w h
  simp only [JFn.pure, Prod.mk.injEq] at h
  omega

theorem TakesLe.map {f : JFn β} (g : β → γ) (hf : TakesLe f) : TakesLe (f.map g) := hf.bind fun _ => .pure _

theorem TakesLe.fail (e : JsonErr) : TakesLe (JFn.fail e : JFn β) := by intro d n w h; simp [JFn.fail, jerr] at h

theorem takesLe {f : JFn β} {tok : Option Byte} (h : JSound f tok) : TakesLe f := fun d n v e => (h.bound d n v e).1

theorem numberAny_jsound : JSound numberAny none := by
  refine ⟨?_, by simp⟩
  intro d n v h
  simp only [numberAny] at h
  split at h
  · simp [jerr] at h
  · exact numberTok_jsound.bound d n v h

theorem sign_le (d : Bytes) : sign d ≤ d.length := by
  cases d with
  | nil => simp [sign]
  | cons c d => simp only [sign, List.length_cons]; split <;> omega

theorem digits_le_length (d : Bytes) : digits d ≤ d.length := by
  unfold digits
  exact (List.takeWhile_prefix _).length_le

theorem numberInt_jsound : JSound numberInt none := by
  refine ⟨?_, by simp⟩
  intro d n v h
  have hd : d ≠ [] := by
    rintro rfl
    simp [numberInt, sign, needDigit, jerr] at h
  refine ⟨?_, hd⟩
  have h1 := sign_le d
  have h2 := digits_le_length (d.drop (sign d))
  rw [List.length_drop] at h2
  simp only [numberInt] at h
  split at h
  · simp [jerr] at h
  · split at h
    · simp [jerr] at h
    · split at h
      · simp [jerr] at h
      · split at h
        · split at h
          · simp at h
          · simp only [Prod.mk.injEq] at h; omega
        · simp only [Prod.mk.injEq] at h; omega

/-- The decoders of strings and numbers. -/
structure Decoders.Sound (D : Decoders) : Prop where
  str : PrefixFn D.str
  num : JSound D.num none

theorem Decoders.value_sound : Decoders.value.Sound := ⟨knownStr_prefix, numberAny_jsound⟩
theorem Decoders.skip_sound : Decoders.skip.Sound := ⟨knownBytes_prefix, numberTok_jsound⟩

theorem whole_takesLe (hD : D.Sound) : ∀ (F depth : Nat),
    (∀ pk, TakesLe (value D B F depth pk)) ∧ (∀ pk, TakesLe (items D B F depth pk)) ∧ (∀ k, TakesLe (members D B F depth k)) := by
  intro F
  induction F with
  | zero => intro depth; exact ⟨fun _ => .fail _, fun _ => .fail _, fun _ => .fail _⟩
  | succ F ih =>
    intro depth
    refine ⟨?_, ?_, ?_⟩
    · intro pk
      rw [value]
      split
      · exact TakesLe.map _ (takesLe (PrefixFn.jsound knownNull_prefix))
      split
      · exact TakesLe.map _ (takesLe (PrefixFn.jsound (knownBool_prefix _)))
      split
      · exact TakesLe.map _ (takesLe (PrefixFn.jsound hD.str))
      split
      · refine TakesLe.bind (takesLe knownArray_jsound) ?_
        intro v
        cases v with
        | none => exact .pure _
        | some c =>
          simp only
          split
          · exact .fail _
          · exact TakesLe.map _ ((ih _).2.1 c)
      split
      · refine TakesLe.bind (takesLe (knownObject_jsound hD.str)) ?_
        intro v
        cases v with
        | none => exact .pure _
        | some c =>
          simp only
          split
          · exact .fail _
          · exact TakesLe.map _ ((ih _).2.2 c)
      split
      · exact TakesLe.map _ (takesLe hD.num)
      · exact .fail _
    · intro pk
      rw [items]
      refine TakesLe.bind ((ih _).1 pk) ?_
      intro v
      refine TakesLe.bind (takesLe arrayStep_jsound) ?_
      intro w
      cases w with
      | none => exact .pure _
      | some c => exact TakesLe.map _ ((ih _).2.1 c)
    · intro k
      rw [members]
      refine TakesLe.bind (takesLe peek_jsound) ?_
      intro pk
      refine TakesLe.bind ((ih _).1 pk) ?_
      intro v
      refine TakesLe.bind (takesLe (nextKey_jsound hD.str)) ?_
      intro w
      cases w with
      | none => exact .pure _
      | some c => exact TakesLe.map _ ((ih _).2.2 c)

theorem bind_some {f : JFn β} {g : β → JFn γ} {tok : Option Byte} (hf : JSound f tok) {d : Bytes} {n : Nat} {w : γ}
    (h : f.bind g d = (n, .ok w)) : d ≠ [] := by
  obtain ⟨i, j, v, h1, _, _⟩ := bind_eq_ok h
  exact (hf.bound _ _ _ h1).2

theorem knownWhole_jsound (hD : D.Sound) (pk : Byte) : JSound (knownWhole D B pk) none := by
  refine ⟨?_, by simp⟩
  intro d n v h
  refine ⟨(whole_takesLe hD _ _).1 pk _ _ _ h, ?_⟩
  unfold knownWhole at h
  rw [value] at h
  split at h
  · exact bind_some (PrefixFn.jsound knownNull_prefix) h
  split at h
  · exact bind_some (PrefixFn.jsound (knownBool_prefix _)) h
  split at h
  · exact bind_some (PrefixFn.jsound hD.str) h
  split at h
  · exact bind_some knownArray_jsound h
  split at h
  · exact bind_some (knownObject_jsound hD.str) h
  split at h
  · exact bind_some hD.num h
  · simp [JFn.fail, jerr] at h

theorem nextWhole_jsound (hD : D.Sound) : JSound (nextWhole D B) none := by
  refine ⟨?_, by simp⟩
  intro d n v h
  exact ⟨TakesLe.bind (takesLe peek_jsound) (fun pk => (whole_takesLe hD _ _).1 pk) _ _ _ h, bind_some peek_jsound h⟩

theorem knownNum_jsound {num : JFn Bytes} (h : JSound num none) (pk : Byte) : JSound (knownNum num pk) none := by
  refine ⟨?_, by simp⟩
  intro d n v e
  simp only [knownNum] at e
  split at e
  · exact h.bound d n v e
  · simp at e

theorem nextNum_jsound {num : JFn Bytes} (h : JSound num none) : JSound (nextNum num) none := by
  refine ⟨?_, by simp⟩
  intro d n v e
  exact ⟨TakesLe.bind (takesLe peek_jsound) (fun pk => (knownNum_jsound h pk) |> takesLe) _ _ _ e, bind_some peek_jsound e⟩

end Jiter

end Verif.RJiter
