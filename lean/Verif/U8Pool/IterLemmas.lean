import Verif.U8Pool.Iter
import Verif.U8Pool.Refine

/-!
# Iterators: helper lemmas
-/

namespace Verif.U8Pool

/-- Collect everything an iterator yields, up to and excluding the first `None`, in at most `fuel`
calls of `next`. -/
def drain {σ α : Type} (next : σ → σ × Option α) : Nat → σ → List α
  | 0, _ => []
  | n + 1, s => match next s with
    | (_, none) => []
    | (s', some a) => a :: drain next n s'

/-- State after `n` calls of `next`. -/
def after {σ α : Type} (next : σ → σ × Option α) : Nat → σ → σ
  | 0, s => s
  | n + 1, s => after next n (next s).1

/-- Consecutive pairs of a list; an odd last element is dropped. -/
def pairUp {α : Type} : List α → List (α × α)
  | a :: b :: r => (a, b) :: pairUp r
  | _ => []

/-- The pool iterator at position `k`. -/
def Pool.iterAt (p : Pool) (k : Nat) : PoolIter := { data := p.data, d := ⟨p.desc, k, p.count⟩ }

/-- The reverse pool iterator with `k` items left. -/
def Pool.iterRevAt (p : Pool) (k : Nat) : PoolRevIter := { data := p.data, d := ⟨p.desc, k⟩ }

theorem Rel.iter_next {p : Pool} {s : Spec} (h : Rel p s) (k : Nat) (hk : k ≤ p.count) :
    (p.iterAt k).next = (p.iterAt (min (k + 1) p.count), s.contents[k]?) := by
  unfold PoolIter.next Pool.iterAt DescIter.next
  have hc := h.count
  by_cases hlt : k < p.count
  · have hk' : s.items[k]? = some s.items[k] := by simp
    simp only [if_pos hlt, (h.ent k _ hk').1, h.slice hk', Spec.contents, List.getElem?_map, hk',
      Option.map_some]
    rw [Nat.min_eq_left (by omega)]
  · simp only [if_neg hlt]
    rw [Nat.min_eq_right (by omega), List.getElem?_eq_none (by simp [Spec.contents]; omega)]
    have : k = p.count := by omega
    simp [this]

theorem Rel.iterRev_next {p : Pool} {s : Spec} (h : Rel p s) (k : Nat) (hk : k ≤ p.count) :
    (p.iterRevAt k).next =
      (p.iterRevAt (k - 1), if k = 0 then none else s.contents[k - 1]?) := by
  unfold PoolRevIter.next Pool.iterRevAt DescRevIter.next
  have hc := h.count
  by_cases h0 : 0 < k
  · have hk' : s.items[k - 1]? = some s.items[k - 1] := by simp
    have : ¬ k = 0 := by omega
    simp only [gt_iff_lt, if_pos h0, (h.ent _ _ hk').1, h.slice hk', Spec.contents,
      List.getElem?_map, hk', Option.map_some, if_neg this]
  · have : k = 0 := by omega
    subst this
    simp

theorem Rel.drain_iter {p : Pool} {s : Spec} (h : Rel p s) (fuel k : Nat) (hk : k ≤ p.count)
    (hf : p.count < fuel + k) : drain PoolIter.next fuel (p.iterAt k) = s.contents.drop k := by
  have hc := h.count
  have hcl : s.contents.length = p.count := by simp [Spec.contents, hc]
  induction fuel generalizing k with
  | zero => omega
  | succ n ih =>
    simp only [drain, h.iter_next k hk]
    by_cases hlt : k < p.count
    · rw [List.getElem?_eq_getElem (by omega)]
      simp only
      rw [Nat.min_eq_left (by omega), ih (k + 1) (by omega) (by omega)]
      rw [← List.drop_eq_getElem_cons]
    · rw [List.getElem?_eq_none (by omega), List.drop_eq_nil_of_le (by omega)]

theorem Rel.drain_iterRev {p : Pool} {s : Spec} (h : Rel p s) (fuel k : Nat) (hk : k ≤ p.count)
    (hf : k < fuel) : drain PoolRevIter.next fuel (p.iterRevAt k) = (s.contents.take k).reverse := by
  have hc := h.count
  have hcl : s.contents.length = p.count := by simp [Spec.contents, hc]
  induction fuel generalizing k with
  | zero => omega
  | succ n ih =>
    simp only [drain, h.iterRev_next k hk]
    cases k with
    | zero => simp
    | succ k =>
      simp only [Nat.add_one_ne_zero, if_false, Nat.add_sub_cancel]
      rw [List.getElem?_eq_getElem (by omega)]
      simp only
      rw [ih k (by omega) (by omega)]
      rw [List.take_add_one, List.getElem?_eq_getElem (by omega), List.reverse_append]
      rfl

theorem Rel.drain_pairs {p : Pool} {s : Spec} (h : Rel p s) (fuel k : Nat) (hk : k ≤ p.count)
    (hf : p.count < fuel + k) :
    drain PoolIter.nextPair fuel (p.iterAt k) = pairUp (s.contents.drop k) := by
  have hc := h.count
  have hcl : s.contents.length = p.count := by simp [Spec.contents, hc]
  induction fuel generalizing k with
  | zero => omega
  | succ n ih =>
    simp only [drain, PoolIter.nextPair, h.iter_next k hk]
    by_cases hlt : k < p.count
    · rw [List.getElem?_eq_getElem (by omega)]
      have em : min (k + 1) p.count = k + 1 := by omega
      simp only [em]
      rw [h.iter_next _ (by omega)]
      by_cases hlt2 : k + 1 < p.count
      · rw [List.getElem?_eq_getElem (by omega)]
        simp only
        rw [Nat.min_eq_left (by omega), ih (k + 1 + 1) (by omega) (by omega)]
        rw [List.drop_eq_getElem_cons (by omega : k < s.contents.length),
          List.drop_eq_getElem_cons (by omega : k + 1 < s.contents.length)]
        simp [pairUp]
      · rw [List.getElem?_eq_none (by omega)]
        simp only
        rw [List.drop_eq_getElem_cons (by omega : k < s.contents.length),
          List.drop_eq_nil_of_le (by omega)]
        simp [pairUp]
    · rw [List.getElem?_eq_none (by omega), List.drop_eq_nil_of_le (by omega)]
      simp [pairUp]

theorem Rel.after_iter {p : Pool} {s : Spec} (h : Rel p s) (n k : Nat) (hk : k ≤ p.count) :
    after PoolIter.next n (p.iterAt k) = p.iterAt (min (k + n) p.count) := by
  induction n generalizing k with
  | zero => simp [after, Nat.min_eq_left hk]
  | succ n ih =>
    simp only [after, h.iter_next k hk]
    rw [ih _ (Nat.min_le_right _ _)]
    congr 1
    omega

theorem Rel.after_iterRev {p : Pool} {s : Spec} (h : Rel p s) (n k : Nat) (hk : k ≤ p.count) :
    after PoolRevIter.next n (p.iterRevAt k) = p.iterRevAt (k - n) := by
  induction n generalizing k with
  | zero => simp [after]
  | succ n ih =>
    simp only [after, h.iterRev_next k hk]
    rw [ih _ (by omega)]
    congr 1
    omega

theorem Rel.after_pairs {p : Pool} {s : Spec} (h : Rel p s) (n k : Nat) (hk : k ≤ p.count) :
    after PoolIter.nextPair n (p.iterAt k) = p.iterAt (min (k + 2 * n) p.count) := by
  have hcl : s.contents.length = p.count := by simp [Spec.contents, h.count]
  induction n generalizing k with
  | zero => simp [after, Nat.min_eq_left hk]
  | succ n ih =>
    have e : (p.iterAt k).nextPair.1 = p.iterAt (min (k + 2) p.count) := by
      simp only [PoolIter.nextPair, h.iter_next k hk]
      by_cases hlt : k < p.count
      · rw [List.getElem?_eq_getElem (by omega)]
        simp only
        have em : min (k + 1) p.count = k + 1 := by omega
        rw [em, h.iter_next _ (by omega)]
        cases s.contents[k + 1]? <;> rfl
      · rw [List.getElem?_eq_none (by omega)]
        simp only
        congr 1; omega
    simp only [after, e]
    rw [ih _ (Nat.min_le_right _ _)]
    congr 1
    omega

end Verif.U8Pool
