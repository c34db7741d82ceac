import Verif.U8Pool.IterLemmas

/-!
# Properties C01 - C09 of `u8pool`

`Reach buffer m p`: `p` is a pool obtained from `U8Pool::new(buffer, m)` by some history of calls.
`Spec` (file `Spec.lean`) is the reference: a list of byte strings.
-/

namespace Verif.U8Pool

/-- `p` is reachable from `U8Pool::new(buffer, m)` by a type-correct history of calls. -/
def Reach (buffer : Bytes) (m : Nat) (p : Pool) : Prop :=
  ∃ p0 os, new buffer m = .ok p0 ∧ (∀ o ∈ os, o.Typed) ∧ (run p0 os).1 = p

/-- Observable contents of a pool through `get`: what `get(0)`, ..., `get(len-1)` return. -/
def Shows (p : Pool) (l : List Bytes) : Prop :=
  p.len = l.length ∧ (p.isEmpty = true ↔ l = []) ∧ (∀ i, p.get i = .ok l[i]?) ∧
    p.top = .ok l.getLast?

theorem Rel.shows {p : Pool} {s : Spec} (h : Rel p s) : Shows p s.contents := by
  refine ⟨by simp [Pool.len, h.count, Spec.contents], ?_, h.get, h.top⟩
  simp [Pool.isEmpty, h.count, Spec.contents]

theorem Shows.unique {p : Pool} {l l' : List Bytes} (h : Shows p l) (h' : Shows p l') : l = l' := by
  apply List.ext_getElem?
  intro i
  have := (h.2.2.1 i).symm.trans (h'.2.2.1 i)
  simpa using this

theorem Reach.rel {buffer : Bytes} {m : Nat} {p : Pool} (h : Reach buffer m p) :
    ∃ s, Rel p s := by
  obtain ⟨p0, os, e, ht, rfl⟩ := h
  exact ⟨_, ((Rel.new e).run os ht).2⟩

/-- A non-trivial reachable state used in the non-vacuity examples below: two items, one of them with
an associated 4-byte value (which needed two bytes of padding), and one item popped. -/
def exOps : List Op :=
  [.push [1, 2], .pushAssoc ⟨4, 4⟩ [10, 11, 12, 13] [97, 98], .push [7], .pop]

def exBuf : Bytes := List.replicate 40 0xEE

def exPool : Pool := match new exBuf 4 with
  | .ok p => (run p exOps).1
  | _ => ⟨0, 0, [], []⟩

theorem exReach : Reach exBuf 4 exPool :=
  ⟨{ maxSlices := 4, count := 0, desc := List.replicate 16 0xEE, data := List.replicate 24 0xEE },
    exOps, by decide, by simp [exOps, Op.Typed], by decide⟩

/-! ## C01 -/

/-- **C01.** Every history of calls on a pool made by `U8Pool::new` produces exactly the results the
reference list produces, and at its end the pool shows exactly the reference's contents. -/
theorem C01_stack_refinement (buffer : Bytes) (m : Nat) (p : Pool) (hnew : new buffer m = .ok p)
    (os : List Op) (ht : ∀ o ∈ os, o.Typed) :
    (run p os).2 = ((Spec.init buffer.length m).run os).2 ∧
    Shows (run p os).1 ((Spec.init buffer.length m).run os).1.contents := by
  have h := (Rel.new hnew).run os ht
  exact ⟨h.1, h.2.shows⟩

/-- **C01**, the four sentences about single calls, without reference to `Spec`: in a reachable pool
showing `l`, a push either succeeds, returns the bytes, and the pool then shows `l ++ [bs]`, or fails
and the pool still shows `l`; pop returns the last element and the pool shows the rest; clear empties. -/
theorem C01_push_pop_clear (buffer : Bytes) (m : Nat) (p : Pool) (h : Reach buffer m p) :
    ∃ l, Shows p l ∧
      (∀ bs, (∃ p', p.push bs = (p', .ok bs) ∧ Shows p' (l ++ [bs])) ∨
             (∃ p' e, p.push bs = (p', .err e) ∧ Shows p' l)) ∧
      (∃ p', p.pop = (p', .ok l.getLast?) ∧ Shows p' l.dropLast) ∧
      Shows p.clear [] := by
  obtain ⟨s, hr⟩ := h.rel
  refine ⟨s.contents, hr.shows, ?_, ?_, hr.clear.shows⟩
  · intro bs
    obtain ⟨p', s', r, e, hr', ⟨e2, rfl⟩ | ⟨er, e2, rfl⟩⟩ := hr.push bs
    · left
      refine ⟨p', e, ?_⟩
      have : s'.contents = s.contents ++ [bs] := by
        simp only [Spec.push] at e2
        split at e2 <;> try simp at e2
        split at e2 <;> try simp at e2
        split at e2 <;> try simp at e2
        split at e2 <;> try simp at e2
        split at e2 <;> try simp at e2
        rw [← e2]; simp [Spec.contents]
      rw [← this]; exact hr'.shows
    · right
      refine ⟨p', er, e, ?_⟩
      have : s' = s := by
        simp only [Spec.push] at e2
        repeat' split at e2
        all_goals simp at e2
        all_goals exact e2.1.symm
      rw [← this]; exact hr'.shows
  · obtain ⟨p', e, hr'⟩ := hr.pop
    refine ⟨p', ?_, ?_⟩
    · rw [e]; simp [Spec.pop, Spec.contents]
    · have := hr'.shows
      simpa [Spec.pop, Spec.contents] using this

/-- Non-vacuity for C01: the example history has successes of every kind. -/
example : (match new exBuf 4 with | .ok p => (run p exOps).2 | _ => []) =
    [.bytes [1, 2], .pair [10, 11, 12, 13] [97, 98], .bytes [7], .opt (some [7])] := by decide

/-- Non-vacuity for C01: what the example pool shows. -/
example : Shows exPool [[1, 2], [10, 11, 12, 13, 97, 98]] := by
  have h := (C01_stack_refinement exBuf 4 _ (by decide : new exBuf 4 = .ok
    { maxSlices := 4, count := 0, desc := List.replicate 16 0xEE, data := List.replicate 24 0xEE })
    exOps (by simp [exOps, Op.Typed])).2
  exact h

/-! ## C02 -/

/-- The shape of the reference state never changes: capacity and slot numbers are those of `new`. -/
theorem Spec.run_const (os : List Op) (s : Spec) : (s.run os).1.cap = s.cap ∧
    (s.run os).1.maxSlices = s.maxSlices ∧ (s.run os).1.slots = s.slots := by
  induction os generalizing s with
  | nil => simp [Spec.run]
  | cons o os ih =>
    simp only [Spec.run]
    have hs : (s.step o).1.cap = s.cap ∧ (s.step o).1.maxSlices = s.maxSlices ∧
        (s.step o).1.slots = s.slots := by
      cases o <;> simp only [Spec.step, Spec.push, Spec.pop, Spec.popAssoc, Spec.replaceTop,
        Spec.setTop] <;> (repeat' split) <;> simp_all <;> (try grind)
    have := ih (s.step o).1
    exact ⟨this.1.trans hs.1, this.2.1.trans hs.2.1, this.2.2.trans hs.2.2⟩

/-- **C02.** After any history, the outcome of `push(bs)` is decided by these numbers only: the item
count against `max_slices`, the data length against the free tail, the start offset and the length
against the 16-bit limit. `used` is the number of bytes occupied by the items of the reference
(data, associated values and padding). The hypothesis excludes only the wrap-around region of C08. -/
theorem C02_push_outcome (buffer : Bytes) (m : Nat) (hm : m * 4 < 2 ^ 64) (p0 : Pool)
    (hnew : new buffer m = .ok p0) (os : List Op) (ht : ∀ o ∈ os, o.Typed) (bs : Bytes) :
    let p := (run p0 os).1
    let used := usedBy ((Spec.init buffer.length m).run os).1.items
    let free := buffer.length - 4 * m - used
    used + free = buffer.length - 4 * m ∧ p.len ≤ m ∧
    (p.len = m → (p.push bs).2 = .err (.sliceLimitExceeded m)) ∧
    (p.len ≠ m → free < bs.length → (p.push bs).2 = .err (.bufferOverflow bs.length free)) ∧
    (p.len ≠ m → bs.length ≤ free → 65535 < used →
      (p.push bs).2 = .err (.valueTooLarge used 65535)) ∧
    (p.len ≠ m → bs.length ≤ free → used ≤ 65535 → 65535 < bs.length →
      (p.push bs).2 = .err (.valueTooLarge bs.length 65535)) ∧
    (p.len ≠ m → bs.length ≤ free → used ≤ 65535 → bs.length ≤ 65535 →
      (p.push bs).2 = .ok bs) := by
  intro p used free
  simp only [p, used, free]
  clear p used free
  have hr := ((Rel.new hnew).run os ht).2
  have hi := Spec.run_const os (Spec.init buffer.length m)
  generalize hS : (Spec.init buffer.length m).run os = R at *
  have hmod : (m * 4) % 2 ^ 64 = m * 4 := Nat.mod_eq_of_lt hm
  simp only [Spec.init, hmod] at hi
  have hused := hr.used
  have hcount := hr.count
  have hcl := hr.countLe
  have hd : m * 4 / 4 = m := by omega
  have hle : R.1.items.length ≤ m := by omega
  obtain ⟨p', s', r, e1, -, hcase⟩ := hr.push bs
  have hpad : Spec.padFor (usedBy R.1.items) Layout.unit.align = 0 := by
    simp [Spec.padFor, Layout.unit, Nat.mod_one]
  have key : ((run p0 os).1.push bs).2 = match (R.1.push Layout.unit [] bs).2 with
      | .ok () => .ok bs
      | .error e => .err e := by
    rcases hcase with ⟨e2, e3⟩ | ⟨er, e2, e3⟩ <;> simp [e1, e2, e3]
  rw [key]
  simp only [Spec.push, hpad, List.length_nil, Nat.zero_add, Nat.add_zero, Pool.len, hcount, hi.1,
    hi.2.1, hi.2.2, u16Max, Nat.mul_comm 4 m, hd]
  refine ⟨by omega, hle, ?_, ?_, ?_, ?_, ?_⟩
  · intro h1; rw [if_pos (by omega)]
  · intro h1 h2; rw [if_neg (by omega), if_pos h2]
  · intro h1 h2 h3; rw [if_neg (by omega), if_neg (by omega), if_pos (by omega)]
  · intro h1 h2 h3 h4
    rw [if_neg (by omega), if_neg (by omega), if_neg (by omega), if_pos h4]
  · intro h1 h2 h3 h4
    rw [if_neg (by omega), if_neg (by omega), if_neg (by omega), if_neg (by omega), if_neg (by omega)]

/-- Non-vacuity for C02: one slot and one byte free, all three reachable small outcomes. -/
example :
    let p0 : Pool := { maxSlices := 2, count := 0, desc := List.replicate 8 0, data := [0, 0, 0] }
    new (List.replicate 11 0) 2 = .ok p0 ∧
    ((run p0 [.push [1, 2]]).1.push [9]).2 = .ok [9] ∧
    ((run p0 [.push [1, 2]]).1.push [9, 9]).2 = .err (.bufferOverflow 2 1) ∧
    ((run p0 [.push [1, 2], .push []]).1.push []).2 = .err (.sliceLimitExceeded 2) := by decide

/-! ## C03 -/

/-- Byte range `[start, end)` of the `i`-th item as recorded by the pool. -/
def Pool.range (p : Pool) (i : Nat) : Option (Nat × Nat) :=
  if i < p.len then (descGet p.desc i).map (fun (s, l) => (s, s + l)) else none

/-- **C03** (layout). In every reachable pool every item has a range, inside the data area, and the
ranges are in increasing order without overlap. -/
theorem C03_ranges_in_bounds_and_disjoint (buffer : Bytes) (m : Nat) (p : Pool)
    (h : Reach buffer m p) :
    (∀ i, i < p.len → ∃ s e, p.range i = some (s, e) ∧ s ≤ e ∧ e ≤ p.data.length) ∧
    (∀ i j s e s' e', i < j → p.range i = some (s, e) → p.range j = some (s', e') → e ≤ s') ∧
    p.desc.length + p.data.length = buffer.length := by
  have hlen : p.desc.length + p.data.length = buffer.length := by
    obtain ⟨p0, os, e, ht, rfl⟩ := h
    have hr0 := Rel.new e
    have hr := (hr0.run os ht).2
    have hi := Spec.run_const os (Spec.init buffer.length m)
    rw [hr.slots, hr.cap, hi.1, hi.2.2]
    have : p0.desc.length + p0.data.length = buffer.length := by
      unfold new at e
      split at e
      · simp at e
      split at e
      · simp at e
      simp only at e
      split at e
      · simp at e
      simp only [PRes.ok.injEq] at e
      rw [← e]; simp; omega
    rw [← hr0.slots, ← hr0.cap]; exact this
  obtain ⟨s, hr⟩ := h.rel
  have hc := hr.count
  refine ⟨?_, ?_, hlen⟩
  · intro i hi
    have hil : i < s.items.length := by rw [← hc]; exact hi
    have hi' : s.items[i]? = some s.items[i] := by simp
    refine ⟨usedBy (s.items.take i) + s.items[i].pad,
      usedBy (s.items.take i) + s.items[i].pad + s.items[i].bytes.length, ?_, by omega,
      hr.descGet_some hi'⟩
    simp [Pool.range, hi, (hr.ent i _ hi').1]
  · intro i j a b a' b' hij h1 h2
    have hj : j < p.len := by
      unfold Pool.range at h2; split at h2
      · assumption
      · simp at h2
    have hi : i < p.len := by omega
    simp only [Pool.len] at hi hj
    have hi' : s.items[i]? = some s.items[i] := by simp
    have hj' : s.items[j]? = some s.items[j] := by simp
    simp only [Pool.range, Pool.len, hi, hj, if_true, (hr.ent i _ hi').1, (hr.ent j _ hj').1,
      Option.map_some, Option.some.injEq, Prod.mk.injEq] at h1 h2
    have := usedBy_take_le (s.items.take j) i s.items[i] (by rw [List.getElem?_take, if_pos hij]; exact hi')
    rw [List.take_take, Nat.min_eq_left (by omega)] at this
    omega

/-- **C03** (no panic). No call on a reachable pool can panic. -/
theorem C03_no_panic (buffer : Bytes) (m : Nat) (p : Pool) (h : Reach buffer m p) :
    (∀ o : Op, o.Typed → (step p o).2 ≠ .panic) ∧ (∀ i, p.get i ≠ .panic) ∧ p.top ≠ .panic ∧
    (∀ L i, p.getAssoc L i ≠ .panic) ∧ (∀ L, p.topAssoc L ≠ .panic) ∧
    (∀ L, p.topAssocObj L ≠ .panic) ∧ (∀ L, p.topAssocBytes L ≠ .panic) := by
  obtain ⟨s, hr⟩ := h.rel
  refine ⟨?_, ?_, ?_, ?_, ?_, ?_, ?_⟩
  · intro o ho
    rw [(hr.step o ho).1]
    cases o <;> simp only [Spec.step] <;> (try split) <;> simp
  · intro i; rw [hr.get]; simp
  · rw [hr.top]; simp
  · intro L i; rw [hr.getAssoc]; simp
  · intro L; rw [hr.topAssoc]; simp
  · intro L; rw [hr.topAssocObj]; simp
  · intro L; rw [hr.topAssocBytes]; simp

theorem descSet_getElem {d d' : Bytes} {i s l : Nat} (h : descSet d i s l = .ok d') (k : Nat)
    (hk : k < 4 * i ∨ 4 * i + 4 ≤ k) : d'[k]? = d[k]? := by
  unfold descSet at h
  split at h
  · simp at h
  split at h
  · simp at h
  simp only at h
  split at h
  · simp at h
  simp only [Except.ok.injEq, descSize] at h
  subst h
  simp only [List.getElem?_set]
  rw [if_neg (by omega), if_neg (by omega), if_neg (by omega), if_neg (by omega)]

/-- **C03** (slot table). A call changes the slot table only in the slot of the item being pushed
(index `len`) or replaced (index `len - 1`). Slot `i` is bytes `4 i .. 4 i + 4` of the table. -/
theorem C03_slot_writes_local (p : Pool) (o : Op) (k : Nat)
    (hk : (step p o).1.desc[k]? ≠ p.desc[k]?) :
    (match o with
      | .push _ | .pushAssoc _ _ _ => 4 * p.len ≤ k ∧ k < 4 * p.len + 4
      | .replaceTop _ _ => 0 < p.len ∧ 4 * (p.len - 1) ≤ k ∧ k < 4 * (p.len - 1) + 4
      | _ => False) := by
  have fin : ∀ (q q' : Pool) (a b : Nat) r, q.finalizePush a b = (q', r) → q.desc = p.desc →
      q.count = p.count → q'.desc[k]? ≠ p.desc[k]? → 4 * p.len ≤ k ∧ k < 4 * p.len + 4 := by
    intro q q' a b r hq hd hc hne
    unfold Pool.finalizePush at hq
    split at hq
    · simp only [Prod.mk.injEq] at hq
      rw [← hq.1, hd] at hne; exact absurd rfl hne
    · rename_i d' hds
      simp only [Prod.mk.injEq] at hq
      rw [← hq.1] at hne
      simp only at hne
      apply Decidable.byContradiction
      intro hc2
      apply hne
      rw [descSet_getElem hds k (by simp only [Pool.len] at hc2; omega), hd]
  cases o with
  | push bs =>
    simp only [step, Pool.push] at hk ⊢
    apply Decidable.byContradiction
    intro hcon
    apply hk
    split <;> rename_i heq <;> (
      split at heq
      · simp only [Prod.mk.injEq] at heq; rw [← heq.1]
      · split at heq
        · split at heq
          · rename_i hf
            simp only [Prod.mk.injEq] at heq
            apply Decidable.byContradiction
            intro hne
            exact hcon (fin _ _ _ _ _ hf rfl rfl (by rw [heq.1]; exact hne))
          · rename_i hf
            split at heq <;> (
              simp only [Prod.mk.injEq] at heq
              apply Decidable.byContradiction
              intro hne
              exact hcon (fin _ _ _ _ _ hf rfl rfl (by rw [heq.1]; exact hne)))
        · simp only [Prod.mk.injEq] at heq; rw [← heq.1])
  | pop =>
    exfalso; apply hk
    simp only [step, Pool.pop]
    split <;> rename_i heq <;> (
      split at heq
      · simp only [Prod.mk.injEq] at heq; rw [← heq.1]
      · split at heq
        · simp only [Prod.mk.injEq] at heq; rw [← heq.1]
        · split at heq <;> (simp only [Prod.mk.injEq] at heq; rw [← heq.1]))
  | pushAssoc L v bs =>
    simp only [step, Pool.pushAssoc] at hk ⊢
    apply Decidable.byContradiction
    intro hcon
    apply hk
    split <;> rename_i heq <;> (
      split at heq
      · simp only [Prod.mk.injEq] at heq; rw [← heq.1]
      · split at heq
        · split at heq
          · split at heq
            · rename_i hf
              simp only [Prod.mk.injEq] at heq
              apply Decidable.byContradiction
              intro hne
              exact hcon (fin _ _ _ _ _ hf rfl rfl (by rw [heq.1]; exact hne))
            · rename_i hf
              split at heq <;> (
                simp only [Prod.mk.injEq] at heq
                apply Decidable.byContradiction
                intro hne
                exact hcon (fin _ _ _ _ _ hf rfl rfl (by rw [heq.1]; exact hne)))
          · simp only [Prod.mk.injEq] at heq; rw [← heq.1]
        · simp only [Prod.mk.injEq] at heq; rw [← heq.1])
  | popAssoc L =>
    exfalso; apply hk
    simp only [step, Pool.popAssoc]
    split <;> rename_i heq <;> (
      split at heq
      · simp only [Prod.mk.injEq] at heq; rw [← heq.1]
      · split at heq <;> (simp only [Prod.mk.injEq] at heq; rw [← heq.1]))
  | replaceTop L bs =>
    simp only [step, Pool.replaceTopAssocBytes] at hk ⊢
    apply Decidable.byContradiction
    intro hcon
    apply hk
    split <;> rename_i heq <;> (
      split at heq
      · simp only [Prod.mk.injEq] at heq; rw [← heq.1]
      · rename_i h0
        split at heq
        · simp only [Prod.mk.injEq] at heq; rw [← heq.1]
        · split at heq
          · simp only [Prod.mk.injEq] at heq; rw [← heq.1]
          · split at heq
            · simp only [Prod.mk.injEq] at heq; rw [← heq.1]
            · split at heq
              · simp only [Prod.mk.injEq] at heq; rw [← heq.1]
              · rename_i hd
                split at heq <;> (
                  simp only [Prod.mk.injEq] at heq
                  rw [← heq.1]
                  exact descSet_getElem hd k (by simp only [Pool.len] at hcon; omega)))
  | clear => exact absurd rfl hk

/-- Non-vacuity for C03: ranges in the example pool (two bytes of padding between the items). -/
example : exPool.range 0 = some (0, 2) ∧ exPool.range 1 = some (4, 10) ∧ exPool.len = 2 := by decide

end Verif.U8Pool
