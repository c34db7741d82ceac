import Verif.U8Pool.Spec

/-!
# Helper lemmas: slot table, byte ranges, the refinement relation
-/

namespace Verif.U8Pool

theorem lohi (n : Nat) (h : n ≤ u16Max) :
    (asU8 n).toNat ||| ((asU8 (n >>> 8)).toNat <<< 8) = n := by
  simp only [asU8, u16Max] at *
  rw [Nat.shiftRight_eq_div_pow]
  simp only [UInt8.toNat_ofNat']
  rw [Nat.or_comm, ← Nat.shiftLeft_add_eq_or_of_lt (by omega), Nat.shiftLeft_eq]
  omega

theorem getD_set {α : Type} (l : List α) (i j : Nat) (a d : α) :
    (l.set i a).getD j d = if i = j ∧ j < l.length then a else l.getD j d := by
  simp only [List.getD_eq_getElem?_getD, List.getElem?_set]
  by_cases h : i = j
  · subst h
    by_cases h2 : i < l.length <;> simp [h2]
  · simp [h]

theorem descSet_length {d d' : Bytes} {i s l : Nat} (h : descSet d i s l = .ok d') :
    d'.length = d.length := by
  unfold descSet at h
  split at h
  · simp at h
  · split at h
    · simp at h
    · simp only at h
      split at h
      · simp at h
      · simp only [Except.ok.injEq] at h; subst h; simp

theorem descGet_descSet_same {d d' : Bytes} {i s l : Nat} (h : descSet d i s l = .ok d') :
    descGet d' i = some (s, l) := by
  unfold descSet at h
  split at h
  · simp at h
  rename_i hs
  split at h
  · simp at h
  rename_i hl
  simp only at h
  split at h
  · simp at h
  rename_i ho
  simp only [Except.ok.injEq] at h
  subst h
  simp only [descGet, List.length_set, ho, ite_false, getD_set]
  simp only [descSize] at *
  have h0 : i * 4 < d.length := by omega
  have h1 : i * 4 + 1 < d.length := by omega
  have h2 : i * 4 + 2 < d.length := by omega
  have h3 : i * 4 + 3 < d.length := by omega
  simp [h0, h1, h2, h3]
  exact ⟨lohi s (by omega), lohi l (by omega)⟩

theorem descGet_descSet_ne {d d' : Bytes} {i j s l : Nat} (h : descSet d i s l = .ok d')
    (hne : i ≠ j) : descGet d' j = descGet d j := by
  unfold descSet at h
  split at h
  · simp at h
  split at h
  · simp at h
  simp only at h
  split at h
  · simp at h
  simp only [Except.ok.injEq] at h
  subst h
  simp only [descGet, List.length_set, getD_set, descSize]
  have e : ∀ a b : Nat, a < 4 → b < 4 → ¬ (i * 4 + a = j * 4 + b) := by intros; omega
  have e0 : ∀ b : Nat, b < 4 → ¬ (i * 4 = j * 4 + b) := by intros; omega
  have e1 : ∀ a : Nat, a < 4 → ¬ (i * 4 + a = j * 4) := by intros; omega
  have e2 : ¬ (i * 4 = j * 4) := by omega
  simp [e, e0, e1, e2]

/-- `descSet` succeeds exactly when the values fit and the slot exists. -/
theorem descSet_cases (d : Bytes) (i s l : Nat) :
    (u16Max < s ∧ descSet d i s l = .error (.valueTooLarge s u16Max)) ∨
    (s ≤ u16Max ∧ u16Max < l ∧ descSet d i s l = .error (.valueTooLarge l u16Max)) ∨
    (s ≤ u16Max ∧ l ≤ u16Max ∧ d.length < i * 4 + 4 ∧
      descSet d i s l = .error (.indexOutOfBounds i (d.length / 4))) ∨
    (s ≤ u16Max ∧ l ≤ u16Max ∧ i * 4 + 4 ≤ d.length ∧ ∃ d', descSet d i s l = .ok d') := by
  unfold descSet
  by_cases hs : s > u16Max
  · left; simp [hs]
  · by_cases hl : l > u16Max
    · right; left; simp [hs, hl]; omega
    · by_cases ho : i * descSize + descSize > d.length
      · right; right; left
        refine ⟨by omega, by omega, by simpa [descSize] using ho, ?_⟩
        simp [hs, hl, ho]; simp [descSize]
      · right; right; right
        refine ⟨by omega, by omega, by simpa [descSize] using ho, ?_⟩
        simp [hs, hl, ho]

/-! ## Byte ranges -/

theorem take_drop_overwrite_below {α : Type} {l bs l' : List α} {s a n : Nat}
    (h : overwrite? l s bs = some l') (hle : a + n ≤ s) :
    (l'.drop a).take n = (l.drop a).take n := by
  unfold overwrite? at h
  split at h
  · rename_i hl
    simp only [Option.some.injEq] at h; subst h
    apply List.ext_getElem?
    intro i
    simp only [List.getElem?_take, List.getElem?_drop]
    split
    · rename_i hi
      rw [List.append_assoc, List.getElem?_append_left (by simp; omega), List.getElem?_take]
      simp; omega
    · rfl
  · simp at h

theorem take_drop_overwrite_same {α : Type} {l bs l' : List α} {s : Nat}
    (h : overwrite? l s bs = some l') :
    (l'.drop s).take bs.length = bs := by
  unfold overwrite? at h
  split at h
  · rename_i hl
    simp only [Option.some.injEq] at h; subst h
    rw [List.append_assoc, List.drop_left' (by simp; omega), List.take_left' rfl]
  · simp at h

theorem drop_overwrite_above {α : Type} {l bs l' : List α} {s a : Nat}
    (h : overwrite? l s bs = some l') (hle : s + bs.length ≤ a) :
    l'.drop a = l.drop a := by
  unfold overwrite? at h
  split at h
  · rename_i hl
    simp only [Option.some.injEq] at h; subst h
    apply List.ext_getElem?
    intro i
    simp only [List.getElem?_drop]
    rw [List.getElem?_append_right (by simp; omega)]
    simp only [List.getElem?_drop, List.length_append, List.length_take]
    congr 1
    omega
  · simp at h

theorem take_add_drop {α : Type} (l : List α) (s a b : Nat) :
    (l.drop s).take (a + b) = (l.drop s).take a ++ (l.drop (s + a)).take b := by
  rw [List.take_add, List.drop_drop]

/-! ## `usedBy` -/

theorem usedBy_append (a b : List Item) : usedBy (a ++ b) = usedBy a + usedBy b := by
  induction a with
  | nil => simp [usedBy]
  | cons x xs ih => simp [usedBy, ih]; omega

theorem usedBy_take_le (a : List Item) (i : Nat) (it : Item) (h : a[i]? = some it) :
    usedBy (a.take i) + it.pad + it.bytes.length ≤ usedBy a := by
  have hi := (List.getElem?_eq_some_iff.mp h).1
  have e : a = a.take i ++ it :: a.drop (i + 1) := by
    have := List.getElem?_eq_some_iff.mp h
    rw [← this.2]
    simp
  have : usedBy a = usedBy (a.take i) + usedBy (it :: a.drop (i + 1)) := by
    conv => lhs; rw [e]
    exact usedBy_append _ _
  simp [usedBy] at this
  omega

/-- The refinement relation between an implementation state and a reference state. -/
structure Rel (p : Pool) (s : Spec) : Prop where
  cap : p.data.length = s.cap
  max : p.maxSlices = s.maxSlices
  slots : p.desc.length = 4 * s.slots
  count : p.count = s.items.length
  countLe : s.items.length ≤ s.slots
  used : usedBy s.items ≤ s.cap
  ent : ∀ i it, s.items[i]? = some it →
    descGet p.desc i = some (usedBy (s.items.take i) + it.pad, it.bytes.length) ∧
    (p.data.drop (usedBy (s.items.take i) + it.pad)).take it.bytes.length = it.bytes

theorem Rel.last {p : Pool} {s : Spec} (h : Rel p s) {it : Item} (hl : s.items.getLast? = some it) :
    0 < p.count ∧ s.items[p.count - 1]? = some it ∧
    usedBy (s.items.take (p.count - 1)) + it.pad + it.bytes.length = usedBy s.items := by
  have hne : s.items ≠ [] := by intro e; simp [e] at hl
  have hp : 0 < s.items.length := List.length_pos_iff.mpr hne
  rw [h.count]
  refine ⟨hp, by rw [← hl, List.getLast?_eq_getElem?], ?_⟩
  have := usedBy_append s.items.dropLast [it]
  rw [List.getLast?_eq_some_iff] at hl
  obtain ⟨ys, hys⟩ := hl
  rw [hys]
  simp [usedBy_append, usedBy]
  omega

theorem Rel.dataUsed {p : Pool} {s : Spec} (h : Rel p s) : p.dataUsed = usedBy s.items := by
  unfold Pool.dataUsed
  split
  · rename_i h0
    have : s.items = [] := by
      have := h.count; rw [h0] at this; exact List.length_eq_zero_iff.mp this.symm
    simp [this, usedBy]
  · rename_i h0
    have hne : s.items ≠ [] := by
      intro e; have := h.count; simp [e] at this; exact h0 this
    obtain ⟨it, hit⟩ : ∃ it, s.items.getLast? = some it :=
      ⟨s.items.getLast hne, List.getLast?_eq_some_getLast hne⟩
    have hl := h.last hit
    rw [(h.ent _ _ hl.2.1).1]
    simp; omega

theorem padFor_add (n a : Nat) :
    Pool.nextMultipleOf n a = n + Spec.padFor n a := by
  unfold Pool.nextMultipleOf Spec.padFor
  split <;> simp

theorem nextMultipleOf_mod (n a : Nat) (ha : 0 < a) : Pool.nextMultipleOf n a % a = 0 := by
  unfold Pool.nextMultipleOf
  split
  · assumption
  · have := Nat.mod_lt n ha
    have h2 : n + (a - n % a) = a * (n / a + 1) := by
      have := Nat.div_add_mod n a
      rw [Nat.mul_add]; omega
    rw [h2]; simp

/-- Popping on both sides preserves the relation. -/
theorem Rel.dropLast {p : Pool} {s : Spec} (h : Rel p s) :
    Rel { p with count := p.count - 1 } { s with items := s.items.dropLast } where
  cap := h.cap
  max := h.max
  slots := h.slots
  count := by simp [h.count]
  countLe := by have := h.countLe; simp; omega
  used := by
    have hu := h.used
    simp only
    cases hl : s.items.getLast? with
    | none => rw [List.getLast?_eq_none_iff] at hl; simp [hl, usedBy]
    | some it =>
      obtain ⟨ys, hys⟩ := List.getLast?_eq_some_iff.mp hl
      rw [hys, usedBy_append] at hu
      simp [hys]; omega
  ent := by
    intro i it hi
    simp only at hi ⊢
    rw [List.getElem?_dropLast] at hi
    split at hi
    · rename_i hlt
      have := h.ent i it hi
      have e : s.items.dropLast.take i = s.items.take i := by
        rw [List.dropLast_eq_take, List.take_take]; congr 1; omega
      rw [e]; exact this
    · simp at hi

theorem Rel.clear {p : Pool} {s : Spec} (h : Rel p s) : Rel p.clear { s with items := [] } where
  cap := h.cap
  max := h.max
  slots := h.slots
  count := rfl
  countLe := by simp
  used := by simp [usedBy]
  ent := by simp

/-- The data area may change arbitrarily outside the occupied bytes. -/
theorem Rel.data {p : Pool} {s : Spec} (h : Rel p s) {d : Bytes} (hlen : d.length = p.data.length)
    (heq : ∀ a n, a + n ≤ usedBy s.items → (d.drop a).take n = (p.data.drop a).take n) :
    Rel { p with data := d } s where
  cap := by simp [hlen, h.cap]
  max := h.max
  slots := h.slots
  count := h.count
  countLe := h.countLe
  used := h.used
  ent := by
    intro i it hi
    have := h.ent i it hi
    refine ⟨this.1, ?_⟩
    simp only
    rw [heq _ _ (usedBy_take_le _ _ _ hi)]
    exact this.2

theorem Rel.descGet_some {p : Pool} {s : Spec} (h : Rel p s) {i : Nat} {it : Item}
    (hi : s.items[i]? = some it) :
    usedBy (s.items.take i) + it.pad + it.bytes.length ≤ p.data.length := by
  have := usedBy_take_le _ _ _ hi
  have := h.used
  have := h.cap
  omega

/-- Slicing the data area at an item gives the item's bytes. -/
theorem Rel.slice {p : Pool} {s : Spec} (h : Rel p s) {i : Nat} {it : Item}
    (hi : s.items[i]? = some it) :
    slice? p.data (usedBy (s.items.take i) + it.pad)
      (usedBy (s.items.take i) + it.pad + it.bytes.length) = some it.bytes := by
  rw [slice?_eq_some (by omega) (h.descGet_some hi)]
  congr 1
  rw [show usedBy (s.items.take i) + it.pad + it.bytes.length -
    (usedBy (s.items.take i) + it.pad) = it.bytes.length by omega]
  exact (h.ent i it hi).2

/-- Slicing a sub-range of an item. -/
theorem Rel.sliceSub {p : Pool} {s : Spec} (h : Rel p s) {i : Nat} {it : Item}
    (hi : s.items[i]? = some it) {a b : Nat} (hab : a ≤ b) (hb : b ≤ it.bytes.length) :
    slice? p.data (usedBy (s.items.take i) + it.pad + a) (usedBy (s.items.take i) + it.pad + b)
      = some ((it.bytes.drop a).take (b - a)) := by
  have := h.descGet_some hi
  rw [slice?_eq_some (by omega) (by omega)]
  congr 1
  conv => rhs; rw [← (h.ent i it hi).2]
  rw [List.drop_take, List.take_take, List.drop_drop]
  congr 1
  omega

end Verif.U8Pool
