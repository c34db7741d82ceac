import Verif.U8Pool.Lemmas

/-!
# The pool refines a list of byte strings: one-step simulation
-/

namespace Verif.U8Pool

theorem Rel.new {buffer : Bytes} {m : Nat} {p : Pool} (h : new buffer m = .ok p) :
    Rel p (Spec.init buffer.length m) := by
  unfold U8Pool.new at h
  split at h
  · simp at h
  split at h
  · simp at h
  simp only at h
  split at h
  · simp at h
  rename_i h0 hb hlen
  simp only [PRes.ok.injEq, descSize] at h hlen
  subst h
  constructor
  · simp [Spec.init]
  · simp [Spec.init]
  · simp only [Spec.init, List.length_take]
    have : (m * 4) % 2 ^ 64 % 4 = 0 := by omega
    omega
  · simp [Spec.init]
  · simp [Spec.init]
  · simp [Spec.init, usedBy]
  · simp [Spec.init]

/-- Outcome of `reserve` in terms of the reference. -/
theorem Rel.reserve {p : Pool} {s : Spec} (h : Rel p s) (L : Layout) (n : Nat) :
    p.reserve L n =
      if s.maxSlices ≤ s.items.length then .error (.sliceLimitExceeded s.maxSlices)
      else if s.cap - usedBy s.items < Spec.padFor (usedBy s.items) L.align + (L.size + n) then
        .error (.bufferOverflow (Spec.padFor (usedBy s.items) L.align + (L.size + n))
          (s.cap - usedBy s.items))
      else .ok (usedBy s.items + Spec.padFor (usedBy s.items) L.align,
        usedBy s.items + Spec.padFor (usedBy s.items) L.align + (L.size + n)) := by
  simp only [Pool.reserve, h.dataUsed, padFor_add, h.count, h.max, h.cap]
  simp only [Nat.add_sub_cancel_left, Nat.add_assoc, GT.gt, GE.ge]

/-- Recording a freshly written item in the slot table. -/
theorem Rel.finalize {p : Pool} {s : Spec} (h : Rel p s) {pad : Nat} {b : Bytes}
    (hfit : usedBy s.items + pad + b.length ≤ s.cap)
    (hdata : (p.data.drop (usedBy s.items + pad)).take b.length = b) :
    (u16Max < usedBy s.items + pad ∧ p.finalizePush (usedBy s.items + pad) b.length =
        (p, .error (.valueTooLarge (usedBy s.items + pad) u16Max))) ∨
    (usedBy s.items + pad ≤ u16Max ∧ u16Max < b.length ∧
        p.finalizePush (usedBy s.items + pad) b.length = (p, .error (.valueTooLarge b.length u16Max))) ∨
    (usedBy s.items + pad ≤ u16Max ∧ b.length ≤ u16Max ∧ s.slots ≤ s.items.length ∧
        p.finalizePush (usedBy s.items + pad) b.length =
          (p, .error (.indexOutOfBounds s.items.length s.slots))) ∨
    (usedBy s.items + pad ≤ u16Max ∧ b.length ≤ u16Max ∧ s.items.length < s.slots ∧
      ∃ p', p.finalizePush (usedBy s.items + pad) b.length = (p', .ok ()) ∧ p'.data = p.data ∧
        Rel p' { s with items := s.items ++ [⟨pad, b⟩] }) := by
  have hsl := h.slots
  have hc := h.count
  rcases descSet_cases p.desc p.count (usedBy s.items + pad) b.length with
    ⟨h1, e⟩ | ⟨h1, h2, e⟩ | ⟨h1, h2, h3, e⟩ | ⟨h1, h2, h3, d', e⟩
  · left; exact ⟨h1, by simp [Pool.finalizePush, e]⟩
  · right; left; exact ⟨h1, h2, by simp [Pool.finalizePush, e]⟩
  · right; right; left
    refine ⟨h1, h2, by omega, ?_⟩
    have e4 : p.desc.length / 4 = s.slots := by omega
    simp [Pool.finalizePush, e, ← hc, e4]
  · right; right; right
    refine ⟨h1, h2, by omega, { p with desc := d', count := p.count + 1 }, ?_, rfl, ?_⟩
    · simp [Pool.finalizePush, e]
    · constructor
      · exact h.cap
      · exact h.max
      · simp only [descSet_length e]; exact h.slots
      · simp [h.count]
      · simp only [List.length_append, List.length_cons, List.length_nil]; omega
      · simp only [usedBy_append, usedBy]; omega
      · intro i it hi
        simp only at hi ⊢
        by_cases hlt : i < s.items.length
        · rw [List.getElem?_append_left hlt] at hi
          have := h.ent i it hi
          rw [descGet_descSet_ne e (by omega), List.take_append_of_le_length (by omega)]
          exact this
        · rw [List.getElem?_append_right (by omega)] at hi
          have hi0 : i = s.items.length := by
            by_cases hz : i - s.items.length = 0
            · omega
            · have hz' : i - s.items.length = (i - s.items.length - 1) + 1 := by omega
              rw [hz'] at hi; simp at hi
          subst hi0
          simp at hi
          subst hi
          simp only [List.take_left]
          rw [← hc, descGet_descSet_same e]
          exact ⟨rfl, hdata⟩

theorem Rel.pushAssoc {p : Pool} {s : Spec} (h : Rel p s) (L : Layout) (v bs : Bytes)
    (hv : v.length = L.size) :
    ∃ p' s' r, p.pushAssoc L v bs = (p', r) ∧ Rel p' s' ∧
      ((s.push L v bs = (s', .ok ()) ∧ r = .ok (v, bs)) ∨
       (∃ e, s.push L v bs = (s', .error e) ∧ r = .err e)) := by
  unfold Pool.pushAssoc
  rw [h.reserve]
  simp only [Spec.push, hv]
  by_cases hmax : s.maxSlices ≤ s.items.length
  · simp only [if_pos hmax]
    exact ⟨p, s, _, rfl, h, .inr ⟨_, rfl, rfl⟩⟩
  simp only [if_neg hmax]
  by_cases hfit : s.cap - usedBy s.items < Spec.padFor (usedBy s.items) L.align + (L.size + bs.length)
  · simp only [if_pos hfit]
    exact ⟨p, s, _, rfl, h, .inr ⟨_, rfl, rfl⟩⟩
  simp only [if_neg hfit]
  have hused := h.used
  have hcap := h.cap
  generalize hU : usedBy s.items = U at *
  generalize hP : Spec.padFor U L.align = P at *
  rw [slice?_eq_some (by omega) (by omega), overwrite?_eq_some (by omega)]
  simp only
  have ow1 : overwrite? p.data (U + P) v = some (p.data.take (U + P) ++ v ++ p.data.drop (U + P + v.length)) :=
    overwrite?_eq_some (by omega)
  have len1 := overwrite?_length ow1
  generalize hd1 : p.data.take (U + P) ++ v ++ p.data.drop (U + P + v.length) = d1 at *
  have ow2 : overwrite? d1 (U + P + L.size) bs =
      some (d1.take (U + P + L.size) ++ bs ++ d1.drop (U + P + L.size + bs.length)) :=
    overwrite?_eq_some (by omega)
  have len2 := overwrite?_length ow2
  rw [slice?_eq_some (by omega) (by omega), ow2]
  simp only
  generalize hd2 : d1.take (U + P + L.size) ++ bs ++ d1.drop (U + P + L.size + bs.length) = d2 at *
  have hrel : Rel { p with data := d2 } s := by
    apply h.data (by omega)
    intro a n han
    rw [take_drop_overwrite_below ow2 (by omega), take_drop_overwrite_below ow1 (by omega)]
  have e1 : (d2.drop (U + P)).take v.length = v := by
    rw [take_drop_overwrite_below ow2 (by omega)]
    exact take_drop_overwrite_same ow1
  have e2 : (d2.drop (U + P + v.length)).take bs.length = bs := by
    rw [hv]; exact take_drop_overwrite_same ow2
  have hdat : (d2.drop (U + P)).take (v ++ bs).length = v ++ bs := by
    rw [List.length_append, take_add_drop, e1, e2]
  have hlen : (v ++ bs).length = L.size + bs.length := by simp [hv]
  have hfin := hrel.finalize (pad := P) (b := v ++ bs) (by simp only [hU]; omega)
    (by simp only [hU]; exact hdat)
  simp only [hU, hlen] at hfin
  rw [show U + P + (L.size + bs.length) - (U + P) = L.size + bs.length by omega]
  rcases hfin with ⟨h1, e⟩ | ⟨h1, h2, e⟩ | ⟨h1, h2, h3, e⟩ | ⟨h1, h2, h3, p', e, edata, hr⟩
  · rw [e, if_pos h1]
    exact ⟨_, _, _, rfl, hrel, .inr ⟨_, rfl, rfl⟩⟩
  · rw [e, if_neg (by omega), if_pos h2]
    exact ⟨_, _, _, rfl, hrel, .inr ⟨_, rfl, rfl⟩⟩
  · rw [e, if_neg (by omega), if_neg (by omega), if_pos h3]
    exact ⟨_, _, _, rfl, hrel, .inr ⟨_, rfl, rfl⟩⟩
  · rw [e, if_neg (by omega), if_neg (by omega), if_neg (by omega)]
    simp only [edata]
    rw [slice?_eq_some (by omega) (by omega), slice?_eq_some (by omega) (by omega)]
    refine ⟨_, _, _, rfl, hr, .inl ⟨rfl, ?_⟩⟩
    simp only [PRes.ok.injEq, Prod.mk.injEq]
    constructor
    · rw [show U + P + L.size - (U + P) = v.length by omega]; exact e1
    · rw [show U + P + (L.size + bs.length) - (U + P + L.size) = bs.length by omega, ← hv]; exact e2

theorem Rel.push {p : Pool} {s : Spec} (h : Rel p s) (bs : Bytes) :
    ∃ p' s' r, p.push bs = (p', r) ∧ Rel p' s' ∧
      ((s.push Layout.unit [] bs = (s', .ok ()) ∧ r = .ok bs) ∨
       (∃ e, s.push Layout.unit [] bs = (s', .error e) ∧ r = .err e)) := by
  unfold Pool.push
  rw [h.reserve]
  have hsz : Layout.unit.size = 0 := rfl
  generalize Layout.unit = L at *
  simp only [Spec.push, List.length_nil, hsz, Nat.zero_add, List.nil_append]
  by_cases hmax : s.maxSlices ≤ s.items.length
  · simp only [if_pos hmax]
    exact ⟨p, s, _, rfl, h, .inr ⟨_, rfl, rfl⟩⟩
  simp only [if_neg hmax]
  by_cases hfit : s.cap - usedBy s.items < Spec.padFor (usedBy s.items) L.align + bs.length
  · simp only [if_pos hfit]
    exact ⟨p, s, _, rfl, h, .inr ⟨_, rfl, rfl⟩⟩
  simp only [if_neg hfit]
  have hused := h.used
  have hcap := h.cap
  generalize hU : usedBy s.items = U at *
  generalize hP : Spec.padFor U L.align = P at *
  have ow1 : overwrite? p.data (U + P) bs = some (p.data.take (U + P) ++ bs ++ p.data.drop (U + P + bs.length)) :=
    overwrite?_eq_some (by omega)
  have len1 := overwrite?_length ow1
  rw [slice?_eq_some (by omega) (by omega), ow1]
  generalize hd1 : p.data.take (U + P) ++ bs ++ p.data.drop (U + P + bs.length) = d1 at *
  simp only
  have hrel : Rel { p with data := d1 } s := by
    apply h.data (by omega)
    intro a n han
    rw [take_drop_overwrite_below ow1 (by omega)]
  have e1 : (d1.drop (U + P)).take bs.length = bs := take_drop_overwrite_same ow1
  have hfin := hrel.finalize (pad := P) (b := bs) (by simp only [hU]; omega)
    (by simp only [hU]; exact e1)
  simp only [hU] at hfin
  rw [show U + P + bs.length - (U + P) = bs.length by omega]
  rcases hfin with ⟨h1, e⟩ | ⟨h1, h2, e⟩ | ⟨h1, h2, h3, e⟩ | ⟨h1, h2, h3, p', e, edata, hr⟩
  · rw [e, if_pos h1]
    exact ⟨_, _, _, rfl, hrel, .inr ⟨_, rfl, rfl⟩⟩
  · rw [e, if_neg (by omega), if_pos h2]
    exact ⟨_, _, _, rfl, hrel, .inr ⟨_, rfl, rfl⟩⟩
  · rw [e, if_neg (by omega), if_neg (by omega), if_pos h3]
    exact ⟨_, _, _, rfl, hrel, .inr ⟨_, rfl, rfl⟩⟩
  · rw [e, if_neg (by omega), if_neg (by omega), if_neg (by omega)]
    simp only [edata]
    rw [slice?_eq_some (by omega) (by omega)]
    refine ⟨_, _, _, rfl, hr, .inl ⟨rfl, ?_⟩⟩
    simp only [PRes.ok.injEq]
    rw [show U + P + bs.length - (U + P) = bs.length by omega]; exact e1

theorem Rel.items_nil {p : Pool} {s : Spec} (h : Rel p s) (h0 : p.count = 0) : s.items = [] :=
  List.length_eq_zero_iff.mp (h.count ▸ h0)

theorem Rel.exists_last {p : Pool} {s : Spec} (h : Rel p s) (h0 : ¬ p.count = 0) :
    ∃ it, s.items.getLast? = some it := by
  have hne : s.items ≠ [] := by
    intro e; have := h.count; simp [e] at this; exact h0 this
  exact ⟨s.items.getLast hne, List.getLast?_eq_some_getLast hne⟩

theorem Rel.pop {p : Pool} {s : Spec} (h : Rel p s) :
    ∃ p', p.pop = (p', .ok (s.pop.2)) ∧ Rel p' s.pop.1 := by
  unfold Pool.pop Spec.pop
  split
  · rename_i h0
    have := h.items_nil h0
    refine ⟨p, by simp [this], ?_⟩
    have e : { s with items := s.items.dropLast } = s := by
      cases s; simp_all
    rw [e]; exact h
  · rename_i h0
    obtain ⟨it, hit⟩ := h.exists_last h0
    have hl := h.last hit
    simp only [(h.ent _ _ hl.2.1).1, h.slice hl.2.1, hit, Option.map_some]
    exact ⟨_, rfl, h.dropLast⟩

theorem Rel.validated {p : Pool} {s : Spec} (h : Rel p s) (L : Layout) (i : Nat) :
    (s.items[i]? = none ∧ p.validatedPositions L i = none) ∨
    ∃ it, s.items[i]? = some it ∧
      ((it.bytes.length < L.size ∧ p.validatedPositions L i = none) ∨
       (L.size ≤ it.bytes.length ∧ p.validatedPositions L i =
          some (usedBy (s.items.take i) + it.pad, usedBy (s.items.take i) + it.pad + L.size,
            usedBy (s.items.take i) + it.pad + it.bytes.length))) := by
  unfold Pool.validatedPositions
  have hc := h.count
  by_cases hi : i < s.items.length
  · right
    refine ⟨s.items[i], by simp [hi], ?_⟩
    have := (h.ent i s.items[i] (by simp [hi])).1
    rw [if_neg (by omega), this]
    simp only
    by_cases hl : s.items[i].bytes.length < L.size
    · left; exact ⟨hl, by simp [hl]⟩
    · right; exact ⟨by omega, by simp [hl]⟩
  · left
    refine ⟨by simp; omega, ?_⟩
    rw [if_pos (by omega)]

theorem Rel.extract {p : Pool} {s : Spec} (h : Rel p s) {i : Nat} {it : Item}
    (hi : s.items[i]? = some it) {n : Nat} (hn : n ≤ it.bytes.length) :
    p.extractAssoc (usedBy (s.items.take i) + it.pad) (usedBy (s.items.take i) + it.pad + n)
      (usedBy (s.items.take i) + it.pad + it.bytes.length) =
      .ok (some (it.bytes.take n, it.bytes.drop n)) := by
  unfold Pool.extractAssoc
  have a := h.sliceSub hi (a := 0) (b := n) (by omega) hn
  have b := h.sliceSub hi (a := n) (b := it.bytes.length) hn (by omega)
  simp only [Nat.add_zero] at a
  rw [a, b]
  simp [List.take_of_length_le]

theorem Rel.getAssoc {p : Pool} {s : Spec} (h : Rel p s) (L : Layout) (i : Nat) :
    p.getAssoc L i = .ok (s.getAssoc L i) := by
  unfold Pool.getAssoc Spec.getAssoc Spec.contents
  rcases h.validated L i with ⟨hi, e⟩ | ⟨it, hi, ⟨hl, e⟩ | ⟨hl, e⟩⟩
  · simp [e, hi]
  · simp [e, hi, Spec.split, hl]
  · rw [e]
    simp only [h.extract hi hl, List.getElem?_map, hi, Option.map_some, Spec.split]
    rw [if_neg (by omega)]

theorem Rel.popAssoc {p : Pool} {s : Spec} (h : Rel p s) (L : Layout) :
    ∃ p', p.popAssoc L = (p', .ok (s.popAssoc L).2) ∧ Rel p' (s.popAssoc L).1 := by
  unfold Pool.popAssoc Spec.popAssoc
  split
  · rename_i h0
    simp [h.items_nil h0, h]
  · rename_i h0
    obtain ⟨it, hit⟩ := h.exists_last h0
    have hl := h.last hit
    simp only [hit]
    rcases h.validated L (p.count - 1) with ⟨hi, e⟩ | ⟨it', hi, ⟨hle, e⟩ | ⟨hle, e⟩⟩
    · rw [hl.2.1] at hi; simp at hi
    · rw [hl.2.1] at hi; simp only [Option.some.injEq] at hi; subst hi
      simp [e, Spec.split, hle, h]
    · rw [hl.2.1] at hi; simp only [Option.some.injEq] at hi; subst hi
      simp only [e, Spec.split]
      rw [if_neg (by omega)]
      have hx := h.extract hl.2.1 hle
      refine ⟨{ p with count := p.count - 1 }, ?_, h.dropLast⟩
      simp only [Prod.mk.injEq, true_and]
      exact hx


theorem Rel.setTop {p : Pool} {s : Spec} (h : Rel p s) {it : Item} (hl : s.items.getLast? = some it)
    {b d desc' : Bytes}
    (hlen : d.length = p.data.length)
    (heq : ∀ a n, a + n ≤ usedBy s.items - it.bytes.length → (d.drop a).take n = (p.data.drop a).take n)
    (hdl : desc'.length = p.desc.length)
    (hget : descGet desc' (p.count - 1) =
      some (usedBy s.items - it.bytes.length, b.length))
    (hother : ∀ j, j ≠ p.count - 1 → descGet desc' j = descGet p.desc j)
    (hfit : usedBy s.items - it.bytes.length + b.length ≤ s.cap)
    (hb : (d.drop (usedBy s.items - it.bytes.length)).take b.length = b) :
    Rel { p with data := d, desc := desc' } (s.setTop b) := by
  have hlast := h.last hl
  obtain ⟨ys, hys⟩ := List.getLast?_eq_some_iff.mp hl
  have hys' : s.items.dropLast = ys := by simp [hys]
  have hs : s.setTop b = { s with items := ys ++ [{ it with bytes := b }] } := by
    simp [Spec.setTop, hl, hys']
  rw [hs]
  have hlen2 : s.items.length = ys.length + 1 := by simp [hys]
  have hc := h.count
  have hu : usedBy s.items = usedBy ys + it.pad + it.bytes.length := by
    rw [hys, usedBy_append]; simp [usedBy]; omega
  constructor
  · simp only [hlen]; exact h.cap
  · exact h.max
  · simp only [hdl]; exact h.slots
  · simp only [List.length_append, List.length_cons, List.length_nil]; omega
  · have := h.countLe
    simp only [List.length_append, List.length_cons, List.length_nil]; omega
  · simp only [usedBy_append, usedBy]; omega
  · intro i it' hi
    simp only at hi ⊢
    by_cases hlt : i < ys.length
    · rw [List.getElem?_append_left hlt] at hi
      have hi2 : s.items[i]? = some it' := by rw [hys, List.getElem?_append_left hlt]; exact hi
      have := h.ent i it' hi2
      have hle := usedBy_take_le _ _ _ hi
      have et : s.items.take i = ys.take i := by
        rw [hys, List.take_append_of_le_length (by omega)]
      rw [List.take_append_of_le_length (by omega), hother i (by omega)]
      rw [et] at this
      refine ⟨this.1, ?_⟩
      rw [heq _ _ (by omega)]
      exact this.2
    · rw [List.getElem?_append_right (by omega)] at hi
      have hi0 : i = ys.length := by
        by_cases hz : i - ys.length = 0
        · omega
        · have hz' : i - ys.length = (i - ys.length - 1) + 1 := by omega
          rw [hz'] at hi; simp at hi
      subst hi0
      simp at hi
      subst hi
      simp only [List.take_left]
      rw [show ys.length = p.count - 1 by omega, hget]
      have e5 : usedBy s.items - it.bytes.length = usedBy ys + it.pad := by omega
      rw [e5] at hb ⊢
      exact ⟨rfl, hb⟩

theorem drop_add_take {α : Type} {d v b : List α} {s : Nat}
    (h1 : (d.drop s).take v.length = v) (h2 : (d.drop (s + v.length)).take b.length = b) :
    (d.drop s).take (v ++ b).length = v ++ b := by
  rw [List.length_append, take_add_drop, h1, h2]

theorem Rel.replaceTop {p : Pool} {s : Spec} (h : Rel p s) (L : Layout) (new : Bytes) :
    ∃ p' s' r, p.replaceTopAssocBytes L new = (p', r) ∧ Rel p' s' ∧
      ((s.replaceTop L new = (s', .ok ()) ∧ r = .ok new) ∨
       (∃ e, s.replaceTop L new = (s', .error e) ∧ r = .err e)) := by
  unfold Pool.replaceTopAssocBytes Spec.replaceTop
  by_cases h0 : p.count = 0
  · rw [if_pos h0]
    simp only [h.items_nil h0, List.getLast?_nil]
    exact ⟨_, _, _, rfl, h, .inr ⟨_, rfl, rfl⟩⟩
  rw [if_neg h0]
  obtain ⟨it, hit⟩ := h.exists_last h0
  have hl := h.last hit
  simp only [hit]
  rcases h.validated L (p.count - 1) with ⟨hi, e⟩ | ⟨it', hi, hcase⟩
  · rw [hl.2.1] at hi; simp at hi
  rw [hl.2.1] at hi; simp only [Option.some.injEq] at hi; subst hi
  rcases hcase with ⟨hle, e⟩ | ⟨hle, e⟩
  · simp only [e, Spec.split, hle, if_true]
    exact ⟨_, _, _, rfl, h, .inr ⟨_, rfl, rfl⟩⟩
  have hnlt : ¬ it.bytes.length < L.size := by omega
  simp only [e, Spec.split, if_neg hnlt, List.length_drop]
  have hused := h.used
  have hcap := h.cap
  have hent := (h.ent _ _ hl.2.1)
  have hS : usedBy (s.items.take (p.count - 1)) + it.pad = usedBy s.items - it.bytes.length := by omega
  have hlU : it.bytes.length ≤ usedBy s.items := by omega
  rw [hS] at hent ⊢
  rw [show s.cap - (usedBy s.items - (it.bytes.length - L.size)) =
    s.cap - (usedBy s.items - it.bytes.length + L.size) by omega]
  generalize hA : usedBy s.items - it.bytes.length = A at *
  rw [hcap]
  by_cases hroom : s.cap - (A + L.size) < new.length
  · rw [if_pos (by omega), if_pos hroom]
    exact ⟨_, _, _, rfl, h, .inr ⟨_, rfl, rfl⟩⟩
  rw [if_neg (by omega), if_neg hroom]
  have ow : overwrite? p.data (A + L.size) new =
      some (p.data.take (A + L.size) ++ new ++ p.data.drop (A + L.size + new.length)) :=
    overwrite?_eq_some (by omega)
  have lenow := overwrite?_length ow
  rw [ow]
  generalize hd : p.data.take (A + L.size) ++ new ++ p.data.drop (A + L.size + new.length) = d at *
  simp only
  rw [show A + L.size - A = L.size by omega]
  have hbelow : ∀ a n, a + n ≤ A → (d.drop a).take n = (p.data.drop a).take n := by
    intro a n han
    rw [take_drop_overwrite_below ow (by omega)]
  have hval : (d.drop A).take (it.bytes.take L.size).length = it.bytes.take L.size := by
    rw [take_drop_overwrite_below ow (by simp; omega)]
    conv => rhs; rw [← hent.2, List.take_take]
    congr 1; simp
  have hnew := take_drop_overwrite_same ow
  have hvl : (it.bytes.take L.size).length = L.size := by simp; omega
  have hsz := descSet_cases p.desc (p.count - 1) A (L.size + new.length)
  have hAle : A ≤ u16Max ∧ it.bytes.length ≤ u16Max := by
    have := hent.1
    have hb : ∀ x y : Nat, x < 256 → y < 256 → x ||| (y <<< 8) ≤ u16Max := by
      intro x y hx hy
      rw [Nat.or_comm, ← Nat.shiftLeft_add_eq_or_of_lt (by omega), Nat.shiftLeft_eq]
      simp [u16Max]; omega
    unfold descGet at this
    simp only at this
    split at this
    · simp at this
    · simp only [Option.some.injEq, Prod.mk.injEq] at this
      constructor
      · rw [← this.1]; exact hb _ _ (UInt8.toNat_lt _) (UInt8.toNat_lt _)
      · rw [← this.2]; exact hb _ _ (UInt8.toNat_lt _) (UInt8.toNat_lt _)
  have hsl := h.slots
  have hcl := h.countLe
  have hc := h.count
  rcases hsz with ⟨h1, e⟩ | ⟨h1, h2, e⟩ | ⟨h1, h2, h3, e⟩ | ⟨h1, h2, h3, d', e⟩
  · omega
  · rw [e, if_pos h2]
    refine ⟨_, _, _, rfl, ?_, .inr ⟨_, rfl, rfl⟩⟩
    have hb : it.bytes.take L.size ++ new.take (it.bytes.length - L.size) =
        it.bytes.take L.size ++ new.take (it.bytes.length - L.size) := rfl
    generalize hB : it.bytes.take L.size ++ new.take (it.bytes.length - L.size) = B at hb
    have hBl : B.length = it.bytes.length := by
      rw [← hB]; simp; omega
    have := h.setTop hit (b := B) (d := d) (desc' := p.desc) (by omega) (by rw [hA]; exact hbelow) rfl
      (by rw [hent.1, hA, hBl]) (by intros; rfl) (by omega)
      (by
        rw [hA, ← hB]
        apply drop_add_take hval
        rw [hvl]
        have : (new.take (it.bytes.length - L.size)).length = it.bytes.length - L.size := by
          simp; omega
        rw [this]
        conv => rhs; rw [← hnew, List.take_take]
        congr 1; omega)
    exact this
  · omega
  · rw [e, if_neg (by omega)]
    rw [slice?_eq_some (by omega) (by omega)]
    refine ⟨_, _, _, rfl, ?_, .inl ⟨rfl, ?_⟩⟩
    · apply h.setTop hit (b := it.bytes.take L.size ++ new) (d := d) (desc' := d') (by omega)
        (by rw [hA]; exact hbelow) (descSet_length e)
        (by rw [descGet_descSet_same e, hA]; simp; omega)
        (by intro j hj; exact descGet_descSet_ne e (by omega)) (by simp; omega)
      rw [hA]
      exact drop_add_take hval (by rw [hvl]; exact hnew)
    · simp only [PRes.ok.injEq]
      rw [show A + L.size + new.length - (A + L.size) = new.length by omega]
      exact hnew

/-- One call: the implementation does what the reference does, and the relation is kept. -/
theorem Rel.step {p : Pool} {s : Spec} (h : Rel p s) (o : Op) (ht : o.Typed) :
    (U8Pool.step p o).2 = (s.step o).2 ∧ Rel (U8Pool.step p o).1 (s.step o).1 := by
  cases o with
  | push bs =>
    obtain ⟨p', s', r, e, hr, ⟨e2, e3⟩ | ⟨er, e2, e3⟩⟩ := h.push bs <;>
      simp [U8Pool.step, Spec.step, e, e2, e3, hr]
  | pop =>
    obtain ⟨p', e, hr⟩ := h.pop
    simp [U8Pool.step, Spec.step, e, hr]
  | pushAssoc L v bs =>
    obtain ⟨p', s', r, e, hr, ⟨e2, e3⟩ | ⟨er, e2, e3⟩⟩ := h.pushAssoc L v bs ht.2 <;>
      simp [U8Pool.step, Spec.step, e, e2, e3, hr]
  | popAssoc L =>
    obtain ⟨p', e, hr⟩ := h.popAssoc L
    simp [U8Pool.step, Spec.step, e, hr]
  | replaceTop L bs =>
    obtain ⟨p', s', r, e, hr, ⟨e2, e3⟩ | ⟨er, e2, e3⟩⟩ := h.replaceTop L bs <;>
      simp [U8Pool.step, Spec.step, e, e2, e3, hr]
  | clear => exact ⟨rfl, h.clear⟩

/-- Every history: same outputs, relation kept. -/
theorem Rel.run {p : Pool} {s : Spec} (h : Rel p s) (os : List Op) (ht : ∀ o ∈ os, o.Typed) :
    (U8Pool.run p os).2 = (s.run os).2 ∧ Rel (U8Pool.run p os).1 (s.run os).1 := by
  induction os generalizing p s with
  | nil => exact ⟨rfl, h⟩
  | cons o os ih =>
    have h1 := h.step o (ht o (by simp))
    have h2 := ih h1.2 (fun o ho => ht o (by simp [ho]))
    simp only [U8Pool.run, Spec.run]
    exact ⟨by rw [h1.1, h2.1], h2.2⟩

/-! ## Observers -/

theorem Rel.get {p : Pool} {s : Spec} (h : Rel p s) (i : Nat) :
    p.get i = .ok (s.contents[i]?) := by
  unfold Pool.get Spec.contents
  have hc := h.count
  by_cases hi : i < s.items.length
  · have hi' : s.items[i]? = some s.items[i] := by simp [hi]
    rw [if_neg (by omega), (h.ent i _ hi').1]
    simp only [h.slice hi', List.getElem?_map, hi', Option.map_some]
  · rw [if_pos (by omega), List.getElem?_eq_none (by simp; omega)]

theorem Rel.top {p : Pool} {s : Spec} (h : Rel p s) :
    p.top = .ok (s.contents.getLast?) := by
  unfold Pool.top
  have hc := h.count
  by_cases h0 : p.count = 0
  · rw [if_pos h0]; simp [Spec.contents, h.items_nil h0]
  · rw [if_neg h0, h.get, List.getLast?_eq_getElem?]
    simp [Spec.contents, hc]

theorem Rel.topAssoc {p : Pool} {s : Spec} (h : Rel p s) (L : Layout) :
    p.topAssoc L = .ok (s.contents.getLast?.bind (Spec.split L.size)) := by
  unfold Pool.topAssoc
  have hc := h.count
  by_cases h0 : p.count = 0
  · rw [if_pos h0]; simp [Spec.contents, h.items_nil h0]
  · rw [if_neg h0, h.getAssoc, Spec.getAssoc, List.getLast?_eq_getElem?]
    simp only [Spec.contents, hc, List.length_map]
    cases (s.items.map (·.bytes))[s.items.length - 1]? <;> simp

theorem Rel.topAssocObj {p : Pool} {s : Spec} (h : Rel p s) (L : Layout) :
    p.topAssocObj L = .ok ((s.contents.getLast?.bind (Spec.split L.size)).map (·.1)) := by
  unfold Pool.topAssocObj
  by_cases h0 : p.count = 0
  · rw [if_pos h0]; simp [Spec.contents, h.items_nil h0]
  · rw [if_neg h0]
    obtain ⟨it, hit⟩ := h.exists_last h0
    have hl := h.last hit
    simp only [Spec.contents, List.getLast?_map, hit, Option.map_some, Option.bind_some]
    rcases h.validated L (p.count - 1) with ⟨hi, e⟩ | ⟨it', hi, hcase⟩
    · rw [hl.2.1] at hi; simp at hi
    rw [hl.2.1] at hi; simp only [Option.some.injEq] at hi; subst hi
    rcases hcase with ⟨hle, e⟩ | ⟨hle, e⟩
    · simp [e, Spec.split, hle]
    · simp only [e, Spec.split]
      have := h.sliceSub hl.2.1 (a := 0) (b := L.size) (by omega) hle
      simp only [Nat.add_zero] at this
      rw [this, if_neg (by omega)]
      simp

theorem Rel.topAssocBytes {p : Pool} {s : Spec} (h : Rel p s) (L : Layout) :
    p.topAssocBytes L = .ok ((s.contents.getLast?.bind (Spec.split L.size)).map (·.2)) := by
  unfold Pool.topAssocBytes
  by_cases h0 : p.count = 0
  · rw [if_pos h0]; simp [Spec.contents, h.items_nil h0]
  · rw [if_neg h0]
    obtain ⟨it, hit⟩ := h.exists_last h0
    have hl := h.last hit
    simp only [Spec.contents, List.getLast?_map, hit, Option.map_some, Option.bind_some]
    rcases h.validated L (p.count - 1) with ⟨hi, e⟩ | ⟨it', hi, hcase⟩
    · rw [hl.2.1] at hi; simp at hi
    rw [hl.2.1] at hi; simp only [Option.some.injEq] at hi; subst hi
    rcases hcase with ⟨hle, e⟩ | ⟨hle, e⟩
    · simp [e, Spec.split, hle]
    · simp only [e, Spec.split]
      rw [h.sliceSub hl.2.1 hle (by omega), if_neg (by omega)]
      simp [List.take_of_length_le]

end Verif.U8Pool
