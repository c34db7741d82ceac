import Verif.U8Pool.Props

/-!
# Properties C04 - C09 of `u8pool`
-/

namespace Verif.U8Pool

theorem Spec.push_ok {s s' : Spec} {L : Layout} {v bs : Bytes} (h : s.push L v bs = (s', .ok ())) :
    s' = { s with items := s.items ++ [⟨Spec.padFor (usedBy s.items) L.align, v ++ bs⟩] } := by
  unfold Spec.push at h
  extract_lets used pad len at h
  by_cases h1 : s.maxSlices ≤ s.items.length
  · simp [h1] at h
  by_cases h2 : s.cap - used < pad + len
  · simp [h1, h2] at h
  by_cases h3 : u16Max < used + pad
  · simp [h1, h2, h3] at h
  by_cases h4 : u16Max < len
  · simp [h1, h2, h3, h4] at h
  by_cases h5 : s.slots ≤ s.items.length
  · simp [h1, h2, h3, h4, h5] at h
  simp only [h1, h2, h3, h4, h5, if_false] at h
  simp only [Prod.mk.injEq, and_true] at h
  exact h.symm

theorem Spec.push_err {s s' : Spec} {L : Layout} {v bs : Bytes} {e : PoolError}
    (h : s.push L v bs = (s', .error e)) : s' = s := by
  unfold Spec.push at h
  extract_lets used pad len at h
  by_cases h1 : s.maxSlices ≤ s.items.length
  · simp [h1] at h; exact h.1.symm
  by_cases h2 : s.cap - used < pad + len
  · simp [h1, h2] at h; exact h.1.symm
  by_cases h3 : u16Max < used + pad
  · simp [h1, h2, h3] at h; exact h.1.symm
  by_cases h4 : u16Max < len
  · simp [h1, h2, h3, h4] at h; exact h.1.symm
  by_cases h5 : s.slots ≤ s.items.length
  · simp [h1, h2, h3, h4, h5] at h; exact h.1.symm
  simp [h1, h2, h3, h4, h5] at h

/-! ## C04 -/

/-- **C04** (plain iterators). In every reachable pool showing `l`: `iter` yields `l`, `iter_rev` yields
`l` reversed, `pairs` yields the consecutive pairs of `l`. After `n` calls of `next` the size hint is
exactly the number of items still to come; once exhausted, `next` keeps returning `None`. -/
theorem C04_iterators (buffer : Bytes) (m : Nat) (p : Pool) (h : Reach buffer m p) :
    ∃ l, Shows p l ∧
      (∀ n, l.length < n → drain PoolIter.next n p.iter = l) ∧
      (∀ n, l.length < n → drain PoolRevIter.next n p.iterRev = l.reverse) ∧
      (∀ n, l.length < n → drain PoolIter.nextPair n p.iter = pairUp l) ∧
      (∀ n, (after PoolIter.next n p.iter).sizeHint = some (l.drop n).length) ∧
      (∀ n, (after PoolRevIter.next n p.iterRev).sizeHint = some (l.reverse.drop n).length) ∧
      (∀ n, (after PoolIter.nextPair n p.iter).pairSizeHint = some ((pairUp l).drop n).length) ∧
      (∀ n, l.length ≤ n → (after PoolIter.next n p.iter).next.2 = none ∧
        (after PoolRevIter.next n p.iterRev).next.2 = none ∧
        (after PoolIter.nextPair n p.iter).nextPair.2 = none) := by
  obtain ⟨s, hr⟩ := h.rel
  have hc := hr.count
  have hcl : s.contents.length = p.count := by simp [Spec.contents, hc]
  have e0 : p.iter = p.iterAt 0 := rfl
  have e1 : p.iterRev = p.iterRevAt p.count := rfl
  have pl : ∀ k (l : List Bytes), l.length = k → (pairUp l).length = k / 2 := by
    intro k
    induction k using Nat.strongRecOn with
    | ind k ih =>
      intro l hl
      match l with
      | [] => simp at hl; subst hl; simp [pairUp]
      | [a] => simp at hl; subst hl; simp [pairUp]
      | a :: b :: r =>
        simp at hl
        have := ih (k - 2) (by omega) r (by omega)
        simp [pairUp, this]; omega
  refine ⟨s.contents, hr.shows, ?_, ?_, ?_, ?_, ?_, ?_, ?_⟩
  · intro n hn
    rw [e0, hr.drain_iter n 0 (by omega) (by omega)]; simp
  · intro n hn
    rw [e1, hr.drain_iterRev n _ (Nat.le_refl _) (by omega), ← hcl, List.take_length]
  · intro n hn
    rw [e0, hr.drain_pairs n 0 (by omega) (by omega)]; simp
  · intro n
    rw [e0, hr.after_iter n 0 (by omega)]
    have e2 : (p.iterAt (min (0 + n) p.count)).sizeHint =
        if min (0 + n) p.count ≤ p.count then some (p.count - min (0 + n) p.count) else none := rfl
    rw [e2, if_pos (Nat.min_le_right _ _)]
    simp [hcl]; omega
  · intro n
    rw [e1, hr.after_iterRev n _ (Nat.le_refl _)]
    simp [PoolRevIter.sizeHint, Pool.iterRevAt, DescRevIter.sizeHint, hcl]
  · intro n
    rw [e0, hr.after_pairs n 0 (by omega)]
    have e2 : (p.iterAt (min (0 + 2 * n) p.count)).sizeHint =
        if min (0 + 2 * n) p.count ≤ p.count then some (p.count - min (0 + 2 * n) p.count)
        else none := rfl
    rw [PoolIter.pairSizeHint, e2, if_pos (Nat.min_le_right _ _)]
    simp [pl _ _ hcl]; omega
  · intro n hn
    refine ⟨?_, ?_, ?_⟩
    · rw [e0, hr.after_iter n 0 (by omega), hr.iter_next _ (Nat.min_le_right _ _)]
      simp; omega
    · rw [e1, hr.after_iterRev n _ (Nat.le_refl _), hr.iterRev_next _ (by omega)]
      simp; omega
    · rw [e0, hr.after_pairs n 0 (by omega)]
      simp only [PoolIter.nextPair]
      rw [hr.iter_next _ (Nat.min_le_right _ _), List.getElem?_eq_none (by omega)]

/-- State of an associated iterator after `n` calls of `next` (of `next` of the reverse one). -/
def AssocIter.afterF (L : Layout) : Nat → AssocIter → AssocIter
  | 0, it => it
  | n + 1, it => AssocIter.afterF L n (it.next L).1

@[inherit_doc AssocIter.afterF]
def AssocIter.afterR (L : Layout) : Nat → AssocIter → AssocIter
  | 0, it => it
  | n + 1, it => AssocIter.afterR L n (it.nextRev L).1

theorem afterF_eq (L : Layout) (p : Pool) (n k : Nat) : AssocIter.afterF L n ⟨p, k⟩ = ⟨p, k + n⟩ := by
  induction n generalizing k with
  | zero => rfl
  | succ n ih => simp only [AssocIter.afterF, AssocIter.next, ih]; congr 1; omega

theorem afterR_eq (L : Layout) (p : Pool) (n k : Nat) : AssocIter.afterR L n ⟨p, k⟩ = ⟨p, k - n⟩ := by
  induction n generalizing k with
  | zero => rfl
  | succ n ih =>
    simp only [AssocIter.afterR, AssocIter.nextRev]
    by_cases h0 : k = 0
    · simp only [h0, if_true, ih]; simp
    · simp only [if_neg h0, ih]; congr 1; omega

/-- **C04** (associated iterators). In every reachable pool showing `l`, the `n`-th call of
`iter_assoc().next()` returns the `n`-th item split into value and data, the `n`-th call of
`iter_assoc_rev().next()` the `n`-th item from the top; the size hints are exact at every point; past the
end both keep returning `None`. (An item shorter than the type, which cannot occur under the safety
contract of `iter_assoc`, is returned as `None`.) -/
theorem C04_assoc_iterators (buffer : Bytes) (m : Nat) (p : Pool) (L : Layout)
    (h : Reach buffer m p) :
    ∃ l, Shows p l ∧ ∀ n,
      let itF := AssocIter.afterF L n p.iterAssoc
      let itR := AssocIter.afterR L n p.iterAssocRev
      (itF.next L).2 = .ok (l[n]?.bind (Spec.split L.size)) ∧
      (itR.nextRev L).2 = .ok (l.reverse[n]?.bind (Spec.split L.size)) ∧
      itF.sizeHint = (l.drop n).length ∧ itR.sizeHintRev = (l.reverse.drop n).length := by
  obtain ⟨s, hr⟩ := h.rel
  have hc := hr.count
  have hcl : s.contents.length = p.count := by simp [Spec.contents, hc]
  refine ⟨s.contents, hr.shows, ?_⟩
  intro n
  have eF : AssocIter.afterF L n p.iterAssoc = ⟨p, n⟩ := by
    rw [Pool.iterAssoc, afterF_eq, Nat.zero_add]
  have eR : AssocIter.afterR L n p.iterAssocRev = ⟨p, p.count - n⟩ := by
    rw [Pool.iterAssocRev, afterR_eq]; rfl
  simp only [eF, eR, AssocIter.next, AssocIter.nextRev, AssocIter.sizeHint, AssocIter.sizeHintRev,
    Pool.len, hr.getAssoc, Spec.getAssoc]
  refine ⟨?_, ?_, ?_, ?_⟩
  · cases s.contents[n]? <;> simp
  · by_cases h0 : p.count - n = 0
    · rw [if_pos h0, List.getElem?_eq_none (by simp; omega)]; simp
    · rw [if_neg h0, List.getElem?_reverse (by omega)]
      rw [show s.contents.length - 1 - n = p.count - n - 1 by omega]
      cases s.contents[p.count - n - 1]? <;> simp
  · simp [hcl]
  · simp [hcl]

/-- Non-vacuity for C04: the example pool and its iterators. -/
example : Reach exBuf 4 exPool ∧
    drain PoolIter.next 3 exPool.iter = [[1, 2], [10, 11, 12, 13, 97, 98]] ∧
    drain PoolRevIter.next 3 exPool.iterRev = [[10, 11, 12, 13, 97, 98], [1, 2]] ∧
    drain PoolIter.nextPair 3 exPool.iter = [([1, 2], [10, 11, 12, 13, 97, 98])] :=
  ⟨exReach, by decide, by decide, by decide⟩

/-! ## C05 -/

/-- A history that stays above item `n`: after every call the pool still has more than `n` items, and
the data of item `n` itself is not replaced (`replace_top_assoc_bytes` is only called when there is
something above it). -/
def StaysAbove (n : Nat) (p : Pool) : List Op → Prop
  | [] => True
  | o :: os =>
    n < (step p o).1.len ∧
    (match o with | .replaceTop _ _ => n + 1 < p.len | _ => True) ∧
    StaysAbove n (step p o).1 os

theorem Spec.step_keeps (s : Spec) (o : Op) (n : Nat) (hn : n < s.items.length)
    (h1 : n < (s.step o).1.items.length)
    (h2 : match o with | .replaceTop _ _ => n + 1 < s.items.length | _ => True) :
    (s.step o).1.items[n]? = s.items[n]? := by
  have hpush : ∀ L v bs, (s.push L v bs).1.items[n]? = s.items[n]? := by
    intro L v bs
    rcases hp : s.push L v bs with ⟨s', _ | _⟩
    · rw [Spec.push_err hp]
    · rw [Spec.push_ok hp]; simp [List.getElem?_append_left hn]
  have hdrop : n < s.items.dropLast.length → s.items.dropLast[n]? = s.items[n]? := by
    intro h; rw [List.getElem?_dropLast]; simp at h; simp [h]
  cases o with
  | push bs =>
    have := hpush Layout.unit [] bs
    simp only [Spec.step]
    rcases hp : s.push Layout.unit [] bs with ⟨s', _ | _⟩ <;> rw [hp] at this <;> exact this
  | pop => exact hdrop h1
  | pushAssoc L v bs =>
    have := hpush L v bs
    simp only [Spec.step]
    rcases hp : s.push L v bs with ⟨s', _ | _⟩ <;> rw [hp] at this <;> exact this
  | popAssoc L =>
    have : (s.popAssoc L).1 = s ∨ (s.popAssoc L).1 = { s with items := s.items.dropLast } := by
      simp only [Spec.popAssoc]
      rcases s.items.getLast? with _ | i
      · exact .inl rfl
      · simp only
        rcases Spec.split L.size i.bytes with _ | r
        · exact .inl rfl
        · exact .inr rfl
    have e : (s.step (.popAssoc L)).1 = (s.popAssoc L).1 := rfl
    rw [e] at h1 ⊢
    rcases this with h | h
    · rw [h]
    · rw [h] at h1 ⊢; exact hdrop h1
  | replaceTop L bs =>
    have hset : ∀ b, (s.setTop b).items[n]? = s.items[n]? := by
      intro b
      simp only [Spec.setTop]
      rcases s.items.getLast? with _ | i
      · rfl
      · simp only
        have : n < s.items.dropLast.length := by simp; omega
        rw [List.getElem?_append_left this]; exact hdrop this
    have : (s.replaceTop L bs).1.items[n]? = s.items[n]? := by
      simp only [Spec.replaceTop]
      rcases s.items.getLast? with _ | i
      · rfl
      simp only
      rcases Spec.split L.size i.bytes with _ | ⟨v, old⟩
      · rfl
      simp only
      by_cases c1 : s.cap - (usedBy s.items - old.length) < bs.length
      · simp [c1]
      by_cases c2 : u16Max < L.size + bs.length
      · simp only [c1, c2, if_true, if_false]; exact hset _
      · simp only [c1, c2, if_false]; exact hset _
    simp only [Spec.step]
    rcases hp : s.replaceTop L bs with ⟨s', _ | _⟩ <;> rw [hp] at this <;> exact this
  | clear => simp [Spec.step] at h1

/-- **C05.** In every reachable pool, if `push_assoc(value, data)` succeeds, it returns `value` and `data`,
and they can be read back through every accessor for as long as the item is in the pool: after any further
history `os` that stays above it, `get_assoc` at its index returns exactly the value and the data; and right
after the push so do `top_assoc`, `top_assoc_obj`, `top_assoc_bytes` and `pop_assoc`. The offset of the value
in the data area is a multiple of the type's alignment, and every other item is unaffected by the push. -/
theorem C05_assoc_roundtrip (buffer : Bytes) (m : Nat) (p : Pool) (h : Reach buffer m p)
    (L : Layout) (v bs : Bytes) (ha : 0 < L.align) (hv : v.length = L.size)
    (p1 : Pool) (r : Bytes × Bytes) (hp : p.pushAssoc L v bs = (p1, .ok r)) :
    r = (v, bs) ∧ p1.len = p.len + 1 ∧
    (∀ os, (∀ o ∈ os, o.Typed) → StaysAbove p.len p1 os →
      (run p1 os).1.getAssoc L p.len = .ok (some (v, bs))) ∧
    p1.topAssoc L = .ok (some (v, bs)) ∧ p1.topAssocObj L = .ok (some v) ∧
    p1.topAssocBytes L = .ok (some bs) ∧ (p1.popAssoc L).2 = .ok (some (v, bs)) ∧
    (∃ s e, p1.range p.len = some (s, e) ∧ s % L.align = 0) ∧
    (∀ i, i < p.len → p1.get i = p.get i) := by
  obtain ⟨s, hr⟩ := h.rel
  obtain ⟨p', s', r', e, hr', hcase⟩ := hr.pushAssoc L v bs hv
  rw [hp] at e
  simp only [Prod.mk.injEq] at e
  obtain ⟨rfl, rfl⟩ := e
  rcases hcase with ⟨e2, e3⟩ | ⟨er, e2, e3⟩
  case inr => exact absurd e3 (by simp)
  simp only [PRes.ok.injEq] at e3
  have hs' : s'.items = s.items ++ [⟨Spec.padFor (usedBy s.items) L.align, v ++ bs⟩] := by
    rw [Spec.push_ok e2]
  have hc := hr.count
  have hc' := hr'.count
  have hsplit : Spec.split L.size (v ++ bs) = some (v, bs) := by
    simp [Spec.split, ← hv]
  have hlast : s'.contents.getLast? = some (v ++ bs) := by simp [Spec.contents, hs']
  refine ⟨e3, ?_, ?_, ?_, ?_, ?_, ?_, ?_, ?_⟩
  · simp [Pool.len, hc, hc', hs']
  · intro os ht hst
    have key : ∀ (os : List Op) (q : Pool) (t : Spec), Rel q t → (∀ o ∈ os, o.Typed) →
        StaysAbove p.len q os → p.len < q.len →
        (t.run os).1.items[p.len]? = t.items[p.len]? ∧ Rel (run q os).1 (t.run os).1 := by
      intro os
      induction os with
      | nil => intro q t hq _ _ _; exact ⟨rfl, hq⟩
      | cons o os ih =>
        intro q t hq ht hst hlt
        have hstep := hq.step o (ht o (by simp))
        obtain ⟨a1, a2, a3⟩ := hst
        have := ih _ _ hstep.2 (fun o ho => ht o (by simp [ho])) a3 a1
        simp only [Spec.run, run]
        refine ⟨?_, this.2⟩
        rw [this.1]
        have c1 := hstep.2.count
        have c2 := hq.count
        simp only [Pool.len] at a1 hlt a2 ⊢
        refine Spec.step_keeps t o p.count ?_ ?_ ?_
        · omega
        · omega
        · cases o with
          | replaceTop L' b' => simp only at a2 ⊢; omega
          | _ => trivial
    have := key os p1 s' hr' ht hst (by simp [Pool.len, hc, hc', hs'])
    rw [this.2.getAssoc, Spec.getAssoc]
    have e5 : (s'.run os).1.contents[p.len]? = some (v ++ bs) := by
      simp only [Spec.contents, List.getElem?_map, this.1, hs']
      simp [Pool.len, hc]
    rw [e5]; simp [hsplit]
  · rw [hr'.topAssoc, hlast]; simp [hsplit]
  · rw [hr'.topAssocObj, hlast]; simp [hsplit]
  · rw [hr'.topAssocBytes, hlast]; simp [hsplit]
  · obtain ⟨q, eq, _⟩ := hr'.popAssoc L
    rw [eq]; simp [Spec.popAssoc, hs', hsplit]
  · have hi : s'.items[p.len]? = some ⟨Spec.padFor (usedBy s.items) L.align, v ++ bs⟩ := by
      simp [hs', Pool.len, hc]
    have := (hr'.ent _ _ hi).1
    have et : s'.items.take p.len = s.items := by simp [hs', Pool.len, hc]
    rw [et] at this
    refine ⟨usedBy s.items + Spec.padFor (usedBy s.items) L.align,
      usedBy s.items + Spec.padFor (usedBy s.items) L.align + (v ++ bs).length, ?_, ?_⟩
    · simp [Pool.range, this]; simp [Pool.len, hc, hc', hs']
    · rw [← padFor_add]; exact nextMultipleOf_mod _ _ ha
  · intro i hi
    rw [hr'.get, hr.get]
    simp only [Pool.len] at hi
    simp only [Spec.contents, List.getElem?_map, hs']
    rw [List.getElem?_append_left (by omega)]

/-- Non-vacuity for C05: a push with padding succeeds on the example pool and a history stays above it. -/
example : Reach exBuf 4 exPool ∧
    (exPool.pushAssoc ⟨2, 2⟩ [5, 6] [9]).2 = .ok ([5, 6], [9]) ∧
    StaysAbove 2 (exPool.pushAssoc ⟨2, 2⟩ [5, 6] [9]).1 [.push [1], .pop, .push [1, 2], .clear] = False
      ∧ StaysAbove 2 (exPool.pushAssoc ⟨2, 2⟩ [5, 6] [9]).1 [.push [1], .pop, .push [1, 2], .pop] := by
  refine ⟨exReach, by decide, ?_, ?_⟩
  · simp only [StaysAbove, eq_iff_iff, iff_false]; decide
  · simp only [StaysAbove]; decide

/-! ## C06 -/

/-- Absolute address of the `i`-th item's start, when the client buffer is at address `base`: the data area
begins behind the `4 * max_slices` bytes of slot table (`split_at_mut`, core.rs line 48). -/
def Pool.address (p : Pool) (base i : Nat) : Option Nat :=
  (p.range i).map (fun (s, _) => base + p.desc.length + s)

/-- **C06 is false**: nothing makes the data area itself aligned. Already a client buffer at an address that is
a multiple of 8, with `max_slices = 1`, gives a reference to an 8-aligned type at an address that is
4 modulo 8. -/
theorem C06_alignment_violated :
    ∃ (buffer : Bytes) (m base : Nat) (p0 : Pool) (v : Bytes) (p1 : Pool) (r : Bytes × Bytes),
      base % 8 = 0 ∧ new buffer m = .ok p0 ∧ p0.pushAssoc ⟨8, 8⟩ v [] = (p1, .ok r) ∧
      ∃ a, p1.address base 0 = some a ∧ a % 8 ≠ 0 :=
  ⟨List.replicate 12 0, 1, 8000,
    { maxSlices := 1, count := 0, desc := List.replicate 4 0, data := List.replicate 8 0 },
    List.replicate 8 1, _, _, by decide, by decide, rfl, 8004, by decide, by decide⟩

/-- **C06, the part that holds**: if the client places the buffer such that `base + 4 * max_slices` is a
multiple of the alignment, every reference is aligned. Missing from the full statement: the placement
condition, which the crate neither documents nor checks. -/
theorem C06_alignment_partial (buffer : Bytes) (m base : Nat) (hm : m * 4 < 2 ^ 64) (p : Pool)
    (h : Reach buffer m p)
    (L : Layout) (v bs : Bytes) (ha : 0 < L.align) (hv : v.length = L.size)
    (hbase : (base + 4 * m) % L.align = 0)
    (p1 : Pool) (r : Bytes × Bytes) (hp : p.pushAssoc L v bs = (p1, .ok r)) :
    ∃ a, p1.address base p.len = some a ∧ a % L.align = 0 := by
  have h5 := C05_assoc_roundtrip buffer m p h L v bs ha hv p1 r hp
  obtain ⟨s, e, hrng, hal⟩ := h5.2.2.2.2.2.2.2.1
  refine ⟨base + p1.desc.length + s, by simp [Pool.address, hrng], ?_⟩
  have hd : p1.desc.length = 4 * m := by
    obtain ⟨p0, os, e, ht, rfl⟩ := h
    have hr := ((Rel.new e).run os ht).2
    obtain ⟨q, s', r', e', hr', hcase⟩ := hr.pushAssoc L v bs hv
    rw [hp] at e'
    simp only [Prod.mk.injEq] at e'
    rw [e'.1]
    have hi := Spec.run_const os (Spec.init buffer.length m)
    have : s'.slots = ((Spec.init buffer.length m).run os).1.slots := by
      rcases hcase with ⟨e2, _⟩ | ⟨_, e2, _⟩ <;>
      · first | rw [Spec.push_ok e2] | rw [Spec.push_err e2]
    rw [hr'.slots, this, hi.2.2]
    simp only [Spec.init]
    omega
  rw [hd, Nat.add_mod, hbase, hal]
  simp

/-- Non-vacuity for C06_partial: an 8-aligned type with an even `max_slices`. -/
example : (8000 + 4 * 4) % 8 = 0 ∧ Reach exBuf 4 exPool ∧
    (exPool.pushAssoc ⟨8, 8⟩ [1, 2, 3, 4, 5, 6, 7, 8] []).2 = .ok ([1, 2, 3, 4, 5, 6, 7, 8], []) :=
  ⟨by decide, exReach, by decide⟩

/-! ## C07 -/

/-- **C07, the part that holds.** In every reachable pool showing `l`, a successful replacement keeps the
value part of the top item, sets its data to exactly the new bytes and touches no other item; a failing
one leaves the contents unchanged provided value and new data together have at most 65535 bytes. Missing:
that last proviso, see `C07_replace_not_atomic`. -/
theorem C07_replace_partial (buffer : Bytes) (m : Nat) (p : Pool) (h : Reach buffer m p)
    (L : Layout) (d : Bytes) :
    ∃ l, Shows p l ∧
      ((∃ p' ini top, p.replaceTopAssocBytes L d = (p', .ok d) ∧ l = ini ++ [top] ∧
          L.size ≤ top.length ∧ Shows p' (ini ++ [top.take L.size ++ d])) ∨
       (∃ p' e, p.replaceTopAssocBytes L d = (p', .err e) ∧
          (L.size + d.length ≤ 65535 → Shows p' l))) := by
  obtain ⟨s, hr⟩ := h.rel
  refine ⟨s.contents, hr.shows, ?_⟩
  obtain ⟨p', s', r, e, hr', ⟨e2, rfl⟩ | ⟨er, e2, rfl⟩⟩ := hr.replaceTop L d
  · left
    simp only [Spec.replaceTop] at e2
    split at e2
    · simp at e2
    rename_i it hit
    obtain ⟨ys, hys⟩ := List.getLast?_eq_some_iff.mp hit
    split at e2
    · simp at e2
    rename_i v old hsp
    simp only [Spec.split] at hsp
    split at hsp
    · simp at hsp
    simp only [Option.some.injEq, Prod.mk.injEq] at hsp
    split at e2
    · simp at e2
    split at e2
    · simp at e2
    simp only [Prod.mk.injEq, and_true] at e2
    refine ⟨p', ys.map (·.bytes), it.bytes, e, by simp [Spec.contents, hys], by omega, ?_⟩
    have := hr'.shows
    rw [← e2] at this
    simp only [Spec.contents, Spec.setTop, hys] at this
    rw [hsp.1]
    simpa using this
  · right
    refine ⟨p', er, e, ?_⟩
    intro hlen
    have : s' = s := by
      simp only [Spec.replaceTop] at e2
      split at e2
      · simp at e2; exact e2.1.symm
      split at e2
      · simp at e2; exact e2.1.symm
      split at e2
      · simp at e2; exact e2.1.symm
      split at e2
      · simp only [u16Max] at *; omega
      · simp at e2
    rw [← this]; exact hr'.shows

/-- **C07 is false as stated**: `replace_top_assoc_bytes` overwrites the data before it checks that the new
length fits into 16 bits, so a rejected call can destroy the old data. Witness: a 70000-byte buffer, a
one-byte value `0` with data `[5]`, replaced by 65535 sevens: the call fails with `ValueTooLarge`, and the
item now reads `[0, 7]`. -/
theorem C07_replace_not_atomic :
    ∃ (buffer : Bytes) (m : Nat) (p p' : Pool) (d : Bytes) (e : PoolError),
      Reach buffer m p ∧ Shows p [[0, 5]] ∧
      p.replaceTopAssocBytes ⟨1, 1⟩ d = (p', .err e) ∧ Shows p' [[0, 7]] := by
  obtain ⟨buffer, hb⟩ : ∃ b : Bytes, b.length = 70000 := ⟨List.replicate 70000 0, List.length_replicate⟩
  obtain ⟨d, hd, hd1⟩ : ∃ d : Bytes, d.length = 65535 ∧ d.take 1 = [7] :=
    ⟨7 :: List.replicate 65534 7, by rw [List.length_cons, List.length_replicate],
      by rw [List.take_succ_cons, List.take_zero]⟩
  obtain ⟨p0, hp0⟩ : ∃ p0, new buffer 1 = .ok p0 := by
    have hne : buffer ≠ [] := by intro e; simp [e] at hb
    have hlen : ¬ buffer.length < 1 * descSize % 2 ^ 64 + 1 := by rw [hb]; decide
    unfold new
    rw [if_neg (by decide), if_neg hne]
    simp only [if_neg hlen]
    exact ⟨_, rfl⟩
  have hr0 := Rel.new hp0
  have ho : ∀ o ∈ [Op.pushAssoc ⟨1, 1⟩ [0] [5]], o.Typed := by simp [Op.Typed]
  have hr1 := (hr0.run _ ho).2
  have hspec : ((Spec.init buffer.length 1).run [Op.pushAssoc ⟨1, 1⟩ [0] [5]]).1 =
      { cap := 69996, maxSlices := 1, slots := 1, items := [⟨0, [0, 5]⟩] } := by
    rw [hb]; decide
  rw [hspec] at hr1
  obtain ⟨p', s', r, e, hr', hcase⟩ := hr1.replaceTop ⟨1, 1⟩ d
  have hrep : Spec.replaceTop { cap := 69996, maxSlices := 1, slots := 1, items := [⟨0, [0, 5]⟩] }
      ⟨1, 1⟩ d =
      ({ cap := 69996, maxSlices := 1, slots := 1, items := [⟨0, [0, 7]⟩] },
        .error (.valueTooLarge 65536 65535)) := by
    simp only [Spec.replaceTop, List.getLast?_singleton, Spec.split, List.length_cons, List.length_nil,
      List.take_succ_cons, List.take_zero, List.drop_succ_cons, List.drop_zero, hd, usedBy, u16Max,
      Spec.setTop, List.dropLast_singleton]
    simp [hd1]
  rw [hrep] at hcase
  rcases hcase with ⟨e2, _⟩ | ⟨er, e2, rfl⟩
  · simp at e2
  simp only [Prod.mk.injEq] at e2
  refine ⟨buffer, 1, _, p', _, er, ⟨p0, _, hp0, ho, rfl⟩, hr1.shows, e, ?_⟩
  have := hr'.shows
  rw [← e2.1] at this
  exact this

/-- Non-vacuity for C07_partial: a growing replacement and a rejected one on the example pool. -/
example : (exPool.replaceTopAssocBytes ⟨4, 4⟩ [1, 2, 3]).2 = .ok [1, 2, 3] ∧
    (exPool.replaceTopAssocBytes ⟨4, 4⟩ (List.replicate 17 0)).2 = .err (.bufferOverflow 17 16) := by
  decide

/-! ## C08 -/

/-- **C08, the part that holds.** As long as `4 * max_slices` does not overflow 64 bits, `new` succeeds exactly on the documented
buffers; the new pool is empty whatever the buffer contained, and `max_slices` empty slices can be pushed,
each push succeeding. Missing from the full statement: `max_slices ≥ 2^62`, see `C08_new_overflow`. -/
theorem C08_new_iff_partial (buffer : Bytes) (m : Nat) (hm : m * 4 < 2 ^ 64) :
    ((∃ p, new buffer m = .ok p) ↔ 1 ≤ m ∧ 4 * m + 1 ≤ buffer.length) ∧
    (∀ p, new buffer m = .ok p → Shows p [] ∧
      (run p (List.replicate m (.push []))).2 = List.replicate m (.bytes [])) := by
  have hmod : (m * 4) % 2 ^ 64 = m * 4 := Nat.mod_eq_of_lt hm
  constructor
  · simp only [new, descSize, hmod]
    by_cases h0 : m = 0
    · simp [h0]
    by_cases hb : buffer = []
    · simp [h0, hb]
    by_cases hl : buffer.length < m * 4 + 1
    · simp [h0, hb, hl]; omega
    · simp [h0, hb, hl]; omega
  · intro p hp
    have hr := Rel.new hp
    refine ⟨hr.shows, ?_⟩
    rw [((hr.run (List.replicate m (.push []))) (by simp [Op.Typed])).1]
    have key : ∀ k (s : Spec), usedBy s.items = 0 → s.items.length + k ≤ s.maxSlices →
        s.maxSlices = s.slots →
        (s.run (List.replicate k (.push []))).2 = List.replicate k (.bytes []) := by
      intro k
      induction k with
      | zero => intro s _ _ _; rfl
      | succ k ih =>
        intro s hu hk hms
        have hst : s.step (.push []) = ({ s with items := s.items ++ [⟨0, []⟩] }, .bytes []) := by
          have h1 : ¬ s.maxSlices ≤ s.items.length := by omega
          have h2 : ¬ s.slots ≤ s.items.length := by omega
          simp [Spec.step, Spec.push, hu, Spec.padFor, h1, h2]
        simp only [List.replicate_succ, Spec.run, hst]
        rw [ih { s with items := s.items ++ [⟨0, []⟩] } (by simp [usedBy_append, usedBy, hu])
          (by simp; omega) hms]
    apply key
    · simp [Spec.init, usedBy]
    · simp [Spec.init]
    · simp only [Spec.init, hmod]; omega

/-- **C08, the overflow region** (64-bit release build; a debug build panics at the multiplication): with
`max_slices = 2^62` the product wraps to 0, `new` accepts a one-byte buffer, and the resulting pool, although
it claims 2^62 slots, cannot store a single empty slice. -/
theorem C08_new_overflow :
    ∃ p, new [0] (2 ^ 62) = .ok p ∧ p.maxSlices = 2 ^ 62 ∧
      (p.push []).2 = .err (.indexOutOfBounds 0 0) := by
  refine ⟨{ maxSlices := 2 ^ 62, count := 0, desc := [], data := [0] }, by rfl, rfl, ?_⟩
  simp [Pool.push, Pool.reserve, Pool.dataUsed, Layout.unit, Pool.nextMultipleOf, slice?, overwrite?,
    Pool.finalizePush, descSet, u16Max, descSize]

/-- Non-vacuity for C08. -/
example : 1 ≤ 4 ∧ 4 * 4 + 1 ≤ exBuf.length ∧ 4 * 4 < 2 ^ 64 := by decide

/-! ## C09 -/

/-- Two pools no caller can tell apart: they show the same, and every history of calls gives the same results
on both (and again indistinguishable pools). -/
def Indistinguishable (p q : Pool) : Prop :=
  ∀ os : List Op, (∀ o ∈ os, o.Typed) → (run p os).2 = (run q os).2 ∧
    ∃ l, Shows (run p os).1 l ∧ Shows (run q os).1 l

theorem Rel.indist {p q : Pool} {s : Spec} (h : Rel p s) (h' : Rel q s) : Indistinguishable p q := by
  intro os ht
  have a := h.run os ht
  have b := h'.run os ht
  exact ⟨a.1.trans b.1.symm, _, a.2.shows, b.2.shows⟩

/-- **C09.** In every reachable pool: a successful push followed by pop, and a successful `push_assoc` followed
by `pop` or by `pop_assoc` of the same type, give a pool no caller can tell from the one before; and so does a
rejected push. -/
theorem C09_push_pop_identity (buffer : Bytes) (m : Nat) (p : Pool) (h : Reach buffer m p)
    (L : Layout) (v bs : Bytes) (hv : v.length = L.size) :
    (∀ r, (p.push bs).2 = .ok r → Indistinguishable (p.push bs).1.pop.1 p) ∧
    (∀ e, (p.push bs).2 = .err e → Indistinguishable (p.push bs).1 p) ∧
    (∀ r, (p.pushAssoc L v bs).2 = .ok r → Indistinguishable ((p.pushAssoc L v bs).1.popAssoc L).1 p ∧
      Indistinguishable (p.pushAssoc L v bs).1.pop.1 p) ∧
    (∀ e, (p.pushAssoc L v bs).2 = .err e → Indistinguishable (p.pushAssoc L v bs).1 p) := by
  obtain ⟨s, hr⟩ := h.rel
  have hpush : ∀ (s : Spec) L v bs s', s.push L v bs = (s', .ok ()) →
      { s' with items := s'.items.dropLast } = s ∧
      ∃ it, s'.items.getLast? = some it ∧ it.bytes = v ++ bs := by
    intro s L v bs s' e2
    rw [Spec.push_ok e2]; simp
  have herr : ∀ (s : Spec) L v bs s' e, s.push L v bs = (s', .error e) → s' = s :=
    fun s L v bs s' e h => Spec.push_err h
  refine ⟨?_, ?_, ?_, ?_⟩
  · intro r hok
    obtain ⟨p', s', r', e, hr', ⟨e2, e3⟩ | ⟨er, e2, e3⟩⟩ := hr.push bs
    · rw [e]
      obtain ⟨q, eq, hq⟩ := hr'.pop
      rw [eq]
      have : s'.pop.1 = s := (hpush _ _ _ _ _ e2).1
      rw [this] at hq
      exact hq.indist hr
    · rw [e, e3] at hok; simp at hok
  · intro er hok
    obtain ⟨p', s', r', e, hr', ⟨e2, e3⟩ | ⟨er, e2, e3⟩⟩ := hr.push bs
    · rw [e, e3] at hok; simp at hok
    · rw [e]; rw [herr _ _ _ _ _ _ e2] at hr'; exact hr'.indist hr
  · intro r hok
    obtain ⟨p', s', r', e, hr', ⟨e2, e3⟩ | ⟨er, e2, e3⟩⟩ := hr.pushAssoc L v bs hv
    · rw [e]
      obtain ⟨hd, it, hit, hb⟩ := hpush _ _ _ _ _ e2
      constructor
      · obtain ⟨q, eq, hq⟩ := hr'.popAssoc L
        rw [eq]
        have : (s'.popAssoc L).1 = s := by
          have hnl : ¬ (v.length + bs.length) < L.size := by omega
          simp only [Spec.popAssoc, hit, Spec.split, hb, List.length_append, if_neg hnl]
          exact hd
        rw [this] at hq
        exact hq.indist hr
      · obtain ⟨q, eq, hq⟩ := hr'.pop
        rw [eq]
        have : s'.pop.1 = s := hd
        rw [this] at hq
        exact hq.indist hr
    · rw [e, e3] at hok; simp at hok
  · intro er hok
    obtain ⟨p', s', r', e, hr', ⟨e2, e3⟩ | ⟨er, e2, e3⟩⟩ := hr.pushAssoc L v bs hv
    · rw [e, e3] at hok; simp at hok
    · rw [e]; rw [herr _ _ _ _ _ _ e2] at hr'; exact hr'.indist hr

/-- Non-vacuity for C09: on the example pool both pushes succeed, and the pool bytes do differ afterwards. -/
example : Reach exBuf 4 exPool ∧ (exPool.push [3]).2 = .ok [3] ∧ (exPool.push [3]).1.pop.1 ≠ exPool ∧
    (exPool.push (List.replicate 99 0)).2 = .err (.bufferOverflow 99 14) :=
  ⟨exReach, by decide, by decide, by decide⟩

end Verif.U8Pool
