import Verif.RJiter.Whole

/-!
# The functions that read a whole value: the fuel does not matter
-/

namespace Verif.RJiter

namespace Jiter

variable {α β γ : Type} {D : Decoders} {B : Build α}

theorem bind_congr' {f f' : JFn β} {g g' : β → JFn γ} {d : Bytes} (h0 : f d = f' d)
    (h : ∀ n v, f d = (n, .ok v) → g v (d.drop n) = g' v (d.drop n)) : f.bind g d = f'.bind g' d := by
  unfold JFn.bind
  rw [← h0]
  rcases hf : f d with ⟨n, x⟩
  cases x with
  | error e => rfl
  | ok v => simp only; rw [h n v hf]

theorem bind_congr {f : JFn β} {g g' : β → JFn γ} {d : Bytes}
    (h : ∀ n v, f d = (n, .ok v) → g v (d.drop n) = g' v (d.drop n)) : f.bind g d = f.bind g' d := bind_congr' rfl h

theorem knownArray_shrinks {d : Bytes} {n : Nat} {v : Option Byte} (h : knownArray d = (n, .ok v)) :
    (d.drop n).length + 1 ≤ d.length := by
  obtain ⟨x, ws, c, t, rfl, hw, hc⟩ := knownArray_ok h
  have h1 := (knownArray_good x hw hc t).enough _ (by simp; omega) (Nat.le_refl _)
  rw [List.take_of_length_le (Nat.le_refl _), h] at h1
  have : n = if c = 93 then 1 + ws.length + 1 else 1 + ws.length := (Prod.mk.inj h1).1
  rw [List.length_drop, this]
  simp only [List.length_cons, List.length_append]
  split <;> omega

theorem arrayStep_shrinks {d : Bytes} {n : Nat} {v : Option Byte} (h : arrayStep d = (n, .ok v)) :
    (d.drop n).length + 1 ≤ d.length := by
  rcases arrayStep_ok h with ⟨ws, t, rfl, _, _, rfl⟩ | ⟨ws, ws2, c, t, rfl, _, _, _, _, _, rfl⟩ <;>
    simp only [List.length_drop, List.length_append, List.length_cons] <;> omega

theorem knownObject_shrinks {known : JFn Bytes} {d : Bytes} {n : Nat} {v : Option Bytes}
    (h : knownObject known d = (n, .ok v)) : (d.drop n).length + 1 ≤ d.length := by
  rcases knownObject_ok h with ⟨x, ws, t, rfl, _, _, rfl⟩ | ⟨x, ws, t, m, k, rfl, _, _, _, rfl⟩ <;>
    simp only [List.length_drop, List.length_append, List.length_cons] <;> omega

theorem nextKey_shrinks {known : JFn Bytes} {d : Bytes} {n : Nat} {v : Option Bytes} (h : nextKey known d = (n, .ok v)) :
    (d.drop n).length + 1 ≤ d.length := by
  rcases nextKey_ok h with ⟨ws, t, rfl, _, _, rfl⟩ | ⟨ws, ws2, t, m, k, rfl, _, _, _, _, rfl⟩ <;>
    simp only [List.length_drop, List.length_append, List.length_cons] <;> omega

theorem drop_le (d : Bytes) (n : Nat) : (d.drop n).length ≤ d.length := by rw [List.length_drop]; omega

theorem fuel_succ : ∀ (F : Nat) (d : Bytes) (depth : Nat),
    (2 * d.length + 1 ≤ F → ∀ pk, value D B F depth pk d = value D B (F + 1) depth pk d) ∧
    (2 * d.length + 2 ≤ F → ∀ pk, items D B F depth pk d = items D B (F + 1) depth pk d) ∧
    (2 * d.length + 2 ≤ F → ∀ k, members D B F depth k d = members D B (F + 1) depth k d) := by
  intro F
  induction F with
  | zero => intro d depth; exact ⟨fun h => absurd h (by omega), fun h => absurd h (by omega), fun h => absurd h (by omega)⟩
  | succ F ih =>
    intro d depth
    refine ⟨?_, ?_, ?_⟩
    · intro h pk
      rw [value, value]
      split
      · rfl
      split
      · rfl
      split
      · rfl
      split
      · refine bind_congr ?_
        intro n v hv
        have hs := knownArray_shrinks hv
        cases v with
        | none => rfl
        | some c =>
          simp only
          split
          · rfl
          · simp only [JFn.map, JFn.bind]
            rw [(ih _ _).2.1 (by omega)]
      split
      · refine bind_congr ?_
        intro n v hv
        have hs := knownObject_shrinks hv
        cases v with
        | none => rfl
        | some c =>
          simp only
          split
          · rfl
          · simp only [JFn.map, JFn.bind]
            rw [(ih _ _).2.2 (by omega)]
      rfl
    · intro h pk
      rw [items, items]
      have h1 : value D B F depth pk d = value D B (F + 1) depth pk d := (ih _ _).1 (by omega) pk
      refine bind_congr' h1 ?_
      intro n v _
      refine bind_congr ?_
      intro m w hw
      have hs := arrayStep_shrinks hw
      have := drop_le d n
      cases w with
      | none => rfl
      | some c =>
        simp only [JFn.map, JFn.bind]
        rw [(ih _ _).2.1 (by omega)]
    · intro h k
      rw [members, members]
      refine bind_congr ?_
      intro i pk _
      have hi := drop_le d i
      have h1 : value D B F depth pk (d.drop i) = value D B (F + 1) depth pk (d.drop i) := (ih _ _).1 (by omega) pk
      refine bind_congr' h1 ?_
      intro n v _
      refine bind_congr ?_
      intro m w hw
      have hs := nextKey_shrinks hw
      have := drop_le (d.drop i) n
      cases w with
      | none => rfl
      | some c =>
        simp only [JFn.map, JFn.bind]
        rw [(ih _ _).2.2 (by omega)]

/-- Enough fuel is as good as more. -/
theorem value_fuel {d : Bytes} {F : Nat} (h : 2 * d.length + 1 ≤ F) (depth : Nat) (pk : Byte) :
    value D B (2 * d.length + 1) depth pk d = value D B F depth pk d := by
  induction F with
  | zero => omega
  | succ F ih =>
    by_cases h1 : 2 * d.length + 1 ≤ F
    · rw [ih h1, (fuel_succ F d depth).1 h1]
    · rw [show F + 1 = 2 * d.length + 1 by omega]

theorem knownWhole_fuel {d : Bytes} {F : Nat} (h : 2 * d.length + 1 ≤ F) (pk : Byte) :
    knownWhole D B pk d = value D B F recursionLimit pk d := value_fuel h _ _

theorem nextWhole_fuel {d : Bytes} {F : Nat} (h : 2 * d.length + 1 ≤ F) :
    nextWhole D B d = nextAt D B F recursionLimit d := by
  unfold nextWhole nextAt
  refine bind_congr ?_
  intro n pk _
  have hn := drop_le d n
  rw [← value_fuel (F := 2 * d.length + 1) (by omega), value_fuel (F := F) (by omega)]

end Jiter

end Verif.RJiter
