import Verif.U8Pool.Refine
import Verif.U8Pool.Iter
import Verif.Scan.Model
import Verif.Scan.Doc

/-!
# The context stack: the pool as a list of positions and names
-/

namespace Verif.Scan

open Verif.U8Pool

/-- A stack entry as an item of the pool. -/
def entry (e : Pos × Bytes) : Item := ⟨0, e.1.byte :: e.2⟩

/-- The names of a stack. -/
abbrev names (l : List (Pos × Bytes)) : List Bytes := l.map (·.2)

/-- The pool holds exactly this stack (innermost first). -/
def Holds (p : Pool) (R : Room) (l : List (Pos × Bytes)) : Prop :=
  Rel p ⟨R.cap, R.max, R.slots, l.reverse.map entry⟩

theorem Pos.ofByte_byte (p : Pos) : Pos.ofByte p.byte = p := by cases p <;> rfl

theorem usedBy_entries (l : List (Pos × Bytes)) : usedBy (l.reverse.map entry) = usedNames (names l) := by
  induction l with
  | nil => rfl
  | cons e l ih =>
    rw [List.reverse_cons, List.map_append, usedBy_append, ih]
    simp [usedBy, usedNames, entry, names]; omega

theorem Holds.len {p : Pool} {R : Room} {l : List (Pos × Bytes)} (h : Holds p R l) : p.len = l.length := by
  have := Rel.count h
  simpa [Pool.len] using this

theorem Holds.push {p : Pool} {R : Room} {l : List (Pos × Bytes)} (h : Holds p R l) (q : Pos) (name : Bytes)
    (hf : R.Fits (names l) name) :
    ∃ p' r, p.pushAssoc posLayout [q.byte] name = (p', .ok r) ∧ Holds p' R ((q, name) :: l) := by
  obtain ⟨p', s', r, e, hr, ⟨e1, e2⟩ | ⟨er, e1, e2⟩⟩ := Rel.pushAssoc h posLayout [q.byte] name rfl
  · refine ⟨p', _, e2 ▸ e, ?_⟩
    obtain ⟨h1, h2, h3, h4, h5⟩ := hf
    simp only [List.length_map] at h1 h5
    simp only [Spec.push, usedBy_entries, List.length_map, List.length_reverse, posLayout, Spec.padFor, Nat.mod_one, if_pos,
      List.length_cons, List.length_nil, Nat.zero_add, U8Pool.u16Max] at e1
    rw [if_neg (by omega), if_neg (by omega), if_neg (by omega), if_neg (by omega), if_neg (by omega)] at e1
    simp only [Prod.mk.injEq, and_true] at e1
    subst e1
    simpa [Holds, entry] using hr
  · exfalso
    obtain ⟨h1, h2, h3, h4, h5⟩ := hf
    simp only [List.length_map] at h1 h5
    simp only [Spec.push, usedBy_entries, List.length_map, List.length_reverse, posLayout, Spec.padFor, Nat.mod_one, if_pos,
      List.length_cons, List.length_nil, Nat.zero_add, U8Pool.u16Max] at e1
    rw [if_neg (by omega), if_neg (by omega), if_neg (by omega), if_neg (by omega), if_neg (by omega)] at e1
    simp at e1

theorem Holds.push_full {p : Pool} {R : Room} {l : List (Pos × Bytes)} (h : Holds p R l) (q : Pos) (name : Bytes)
    (hf : ¬ R.Fits (names l) name) :
    ∃ p' er, p.pushAssoc posLayout [q.byte] name = (p', .err er) ∧ Holds p' R l ∧
      (R.max ≤ l.length → er = .sliceLimitExceeded R.max) ∧
      (¬ R.max ≤ l.length → ∀ m, er ≠ .sliceLimitExceeded m) := by
  obtain ⟨p', s', r, e, hr, ⟨e1, e2⟩ | ⟨er, e1, e2⟩⟩ := Rel.pushAssoc h posLayout [q.byte] name rfl
  · exfalso
    apply hf
    simp only [Spec.push, usedBy_entries, List.length_map, List.length_reverse, posLayout, Spec.padFor, Nat.mod_one, if_pos,
      List.length_cons, List.length_nil, Nat.zero_add, U8Pool.u16Max] at e1
    split at e1; · simp at e1
    split at e1; · simp at e1
    split at e1; · simp at e1
    split at e1; · simp at e1
    split at e1; · simp at e1
    unfold Room.Fits
    simp only [List.length_map]
    omega
  · subst e2
    have hs : s' = ⟨R.cap, R.max, R.slots, l.reverse.map entry⟩ := by
      simp only [Spec.push] at e1
      split at e1; · simp only [Prod.mk.injEq] at e1; exact e1.1.symm
      split at e1; · simp only [Prod.mk.injEq] at e1; exact e1.1.symm
      split at e1; · simp only [Prod.mk.injEq] at e1; exact e1.1.symm
      split at e1; · simp only [Prod.mk.injEq] at e1; exact e1.1.symm
      split at e1; · simp only [Prod.mk.injEq] at e1; exact e1.1.symm
      simp at e1
    refine ⟨p', er, e, by subst hs; exact hr, ?_, ?_⟩
    · intro hm
      simp only [Spec.push, List.length_map, List.length_reverse] at e1
      rw [if_pos hm] at e1
      simp only [Prod.mk.injEq, Except.error.injEq] at e1
      exact e1.2.symm
    · intro hm m
      simp only [Spec.push, List.length_map, List.length_reverse] at e1
      rw [if_neg hm] at e1
      split at e1; · simp only [Prod.mk.injEq, Except.error.injEq] at e1; rw [← e1.2]; simp
      split at e1; · simp only [Prod.mk.injEq, Except.error.injEq] at e1; rw [← e1.2]; simp
      split at e1; · simp only [Prod.mk.injEq, Except.error.injEq] at e1; rw [← e1.2]; simp
      split at e1; · simp only [Prod.mk.injEq, Except.error.injEq] at e1; rw [← e1.2]; simp
      simp at e1

theorem Holds.pop {p : Pool} {R : Room} {e : Pos × Bytes} {l : List (Pos × Bytes)} (h : Holds p R (e :: l)) :
    ∃ p' r, p.popAssoc posLayout = (p', .ok (some r)) ∧ Holds p' R l := by
  obtain ⟨p', h1, h2⟩ := Rel.popAssoc h posLayout
  have hx : (Spec.popAssoc ⟨R.cap, R.max, R.slots, (e :: l).reverse.map entry⟩ posLayout) =
      (⟨R.cap, R.max, R.slots, l.reverse.map entry⟩, some ([e.1.byte], e.2)) := by
    simp [Spec.popAssoc, entry, Spec.split, posLayout]
  rw [hx] at h1 h2
  exact ⟨p', _, h1, h2⟩

theorem Holds.popName {p : Pool} {R : Room} {e : Pos × Bytes} {l : List (Pos × Bytes)} (h : Holds p R (e :: l)) :
    ∃ p' r, p.popAssoc posLayout = (p', .ok (some r)) ∧ r.2 = e.2 ∧ Holds p' R l := by
  obtain ⟨p', h1, h2⟩ := Rel.popAssoc h posLayout
  have hx : (Spec.popAssoc ⟨R.cap, R.max, R.slots, (e :: l).reverse.map entry⟩ posLayout) =
      (⟨R.cap, R.max, R.slots, l.reverse.map entry⟩, some ([e.1.byte], e.2)) := by
    simp [Spec.popAssoc, entry, Spec.split, posLayout]
  rw [hx] at h1 h2
  exact ⟨p', _, h1, rfl, h2⟩

theorem Holds.getAssoc {p : Pool} {R : Room} {l : List (Pos × Bytes)} (h : Holds p R l) (i : Nat) :
    p.getAssoc posLayout i = .ok ((l.reverse[i]?).map fun e => ([e.1.byte], e.2)) := by
  rw [Rel.getAssoc h]
  congr 1
  simp only [Spec.getAssoc, Spec.contents, List.getElem?_map]
  cases l.reverse[i]? with
  | none => rfl
  | some e => simp [entry, Spec.split, posLayout]

theorem Holds.topPos {β : Type} {st : St β} {R : Room} {e : Pos × Bytes} {l : List (Pos × Bytes)} (h : Holds st.pool R (e :: l))
    (msg : String) : topPos st msg = .ok e.1 := by
  have hr : Rel st.pool _ := h
  have hc : st.pool.count = (e :: l).length := h.len
  have ht := hr.validated posLayout (st.pool.count - 1)
  have hi : (((e :: l).reverse.map entry)[st.pool.count - 1]?) = some (entry e) := by
    rw [hc]; simp
  simp only [] at ht
  rcases ht with ⟨hn, _⟩ | ⟨it, hit, ⟨hl, _⟩ | ⟨hl, hv⟩⟩
  · rw [hi] at hn; simp at hn
  · rw [hi] at hit
    simp only [Option.some.injEq] at hit
    subst hit
    simp [entry, posLayout] at hl
  · rw [hi] at hit
    simp only [Option.some.injEq] at hit
    subst hit
    have hx := hr.extract (i := st.pool.count - 1) (it := entry e) hi (n := 1) (by simp [entry])
    simp only [Pool.extractAssoc] at hx
    have hv' := hv
    simp only [posLayout] at hv' hx
    unfold Scan.topPos Pool.topAssocObj
    rw [if_neg (by rw [hc]; simp), show posLayout = (⟨1, 1⟩ : Layout) from rfl, hv']
    simp only []
    split at hx
    · rename_i a d ha hd
      rw [ha]
      simp only [PRes.ok.injEq, Option.some.injEq, Prod.mk.injEq] at hx
      rw [hx.1]
      simp [entry, Pos.ofByte_byte]
    · simp at hx

theorem namesFrom_holds {p : Pool} {R : Room} {l : List (Pos × Bytes)} (h : Holds p R l) :
    ∀ n k, k ≤ l.length → k < n → namesFrom n ⟨p, k⟩ = names (l.drop (l.length - k)) := by
  intro n
  induction n with
  | zero => intro k _ hk; omega
  | succ n ih =>
    intro k hk hkn
    unfold namesFrom AssocIter.nextRev
    simp only
    by_cases h0 : k = 0
    · subst h0
      rw [if_pos rfl]
      simp
    · rw [if_neg h0, h.getAssoc]
      have hx : l.reverse[k - 1]? = some (l[l.length - k]'(by omega)) := by
        rw [List.getElem?_reverse (by omega), List.getElem?_eq_getElem (by omega)]
        congr 2; omega
      rw [hx]
      simp only [Option.map_some]
      rw [ih (k - 1) (by omega) (by omega)]
      rw [show l.drop (l.length - k) = l[l.length - k]'(by omega) :: l.drop (l.length - (k - 1)) by
        rw [List.drop_eq_getElem_cons (by omega)]; congr 2; omega]
      simp

theorem Holds.ctx {p : Pool} {R : Room} {l : List (Pos × Bytes)} (h : Holds p R l) :
    Ctx.of p = ⟨names l, (names l).length⟩ := by
  unfold Ctx.of
  have hl := h.len
  simp only [Pool.iterAssocRev, AssocIter.sizeHintRev]
  rw [hl, namesFrom_holds h _ _ (Nat.le_refl _) (Nat.lt_succ_self _)]
  simp

end Verif.Scan
