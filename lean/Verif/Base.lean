/-!
# Shared vocabulary

Byte slices are `List UInt8`. Rust slice indexing that can panic is modelled by functions into
`Option`, `none` standing for the panic.
-/

namespace Verif

abbrev Byte := UInt8
abbrev Bytes := List UInt8

/-- `&l[s..e]` of Rust: panics (`none`) when `s > e` or `e > l.len()`. -/
def slice? {α : Type} (l : List α) (s e : Nat) : Option (List α) :=
  if s ≤ e ∧ e ≤ l.length then some ((l.drop s).take (e - s)) else none

/-- `l[s..s+bs.len()].copy_from_slice(bs)` of Rust: panics (`none`) when the range is out of bounds. -/
def overwrite? {α : Type} (l : List α) (s : Nat) (bs : List α) : Option (List α) :=
  if s + bs.length ≤ l.length then some (l.take s ++ bs ++ l.drop (s + bs.length)) else none

theorem slice?_eq_some {α : Type} {l : List α} {s e : Nat} (h1 : s ≤ e) (h2 : e ≤ l.length) :
    slice? l s e = some ((l.drop s).take (e - s)) := by
  simp [slice?, h1, h2]

theorem overwrite?_eq_some {α : Type} {l bs : List α} {s : Nat} (h : s + bs.length ≤ l.length) :
    overwrite? l s bs = some (l.take s ++ bs ++ l.drop (s + bs.length)) := by
  simp [overwrite?, h]

theorem overwrite?_length {α : Type} {l bs l' : List α} {s : Nat} (h : overwrite? l s bs = some l') :
    l'.length = l.length := by
  unfold overwrite? at h
  split at h
  · simp only [Option.some.injEq] at h; subst h; simp; omega
  · simp at h

end Verif
