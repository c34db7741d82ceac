import Verif.Scan.ReturnsProps
import Verif.Ddb.ToNormal
import Verif.U8Pool.Refine

/-!
# Property C58: `convert_ddb_to_normal` returns, on any input
-/

namespace Verif.Ddb

open Verif.U8Pool (Pool)
open Verif.RJiter (RJ Err Res Reader Writer oneByOne)
open Verif.Scan

namespace ToNormal

variable {F : Nat} {s0 s : RJ}

/-- An action that only writes answers `None` at the same place, and `ValueIsConsumed` only behind something. -/
theorem act_gives (f : ToNormal → Step) (op : StreamOp) {n : Nat} (hm : s0.Moved s n) (ho : op = .valueIsConsumed → 1 ≤ n) (b : ToNormal) :
    Gives s0 (act f op s b) := by
  unfold act Step.run
  rcases f b with ⟨b', _ | m⟩
  · cases op with
    | none => exact ⟨n, hm⟩
    | valueIsConsumed => exact ⟨n, ho rfl, hm⟩
    | error m => trivial
  · trivial

theorem act_stays (f : ToNormal → Step) (h : s.Sync) (b : ToNormal) : Gives s (act f .none s b) :=
  act_gives f .none (.refl h) (by simp) b

theorem settle_gives (f : ToNormal → ToNormal) {x : (RJ × ToNormal) × Acted} (h : Gives s x) : Gives s (settle f x) := by
  rcases x with ⟨⟨s', b⟩, (_ | _ | m) | _ | _⟩ <;> exact h

theorem writeString_gives (hu : Usable F s) (quotes : Bool) (pc wc : String) (b : ToNormal) : Gives s (writeString F quotes pc wc s b) := by
  unfold writeString
  have hp := RJ.peek_runs hu.sync (by have := hu.len; omega) hu.fuel
  generalize s.peek F = x at hp ⊢
  rcases x with ⟨s1, c | e | _ | _⟩
  · obtain ⟨n, _, hm⟩ := hp
    have hu1 := hu.moved hm
    simp only
    split
    · trivial
    · unfold Step.run
      rcases b.writeComma.bind (quote quotes "writing opening quote") with ⟨b1, _ | m⟩
      · simp only [RJ.writeLongBytes]
        have hl := RJ.handleLong_runs .raw b1.d.w hu1.sync hu1.len hu1.fuel
        generalize RJ.handleLong .raw F s1 b1.d.w = y at hl ⊢
        rcases y with ⟨⟨s2, w⟩, _ | e | _ | _⟩
        · obtain ⟨k, hk, hm2⟩ := hl
          exact act_gives _ _ (hm.trans hm2) (by omega) _
        · trivial
        · exact hl
        · exact hl
      · trivial
  · trivial
  · exact hp
  · exact hp

theorem writeBool_gives (hu : Usable F s) (output : Byte → Bytes × Option String) (name : String) (b : ToNormal) :
    Gives s (writeBool F output name s b) := by
  unfold writeBool
  have hp := RJ.peek_runs hu.sync (by have := hu.len; omega) hu.fuel
  generalize s.peek F = x at hp ⊢
  rcases x with ⟨s1, c | e | _ | _⟩
  · obtain ⟨n, _, hm⟩ := hp
    have hu1 := hu.moved hm
    simp only
    rcases output c with ⟨bytes, _ | m⟩
    · simp only [Step.run]
      rcases b.writeComma with ⟨b1, _ | m⟩
      · have hl := RJ.knownBool_runs c hu1.sync (by have := hu1.len; omega) hu1.fuel
        simp only
        generalize s1.knownBool F c = y at hl ⊢
        rcases y with ⟨s2, v | e | _ | _⟩
        · obtain ⟨k, hk, hm2⟩ := hl
          exact act_gives _ _ (hm.trans hm2) (by omega) _
        · trivial
        · exact hl
        · exact hl
      · trivial
    · trivial
  · trivial
  · exact hp
  · exact hp

theorem onTypeKey_gives (hu : Usable F s) (b : ToNormal) : Gives s (onTypeKey F s b) := by
  unfold onTypeKey
  cases b.field with
  | none => trivial
  | some key =>
    simp only
    split
    · exact settle_gives _ (writeString_gives hu _ _ _ _)
    split
    · exact settle_gives _ (writeString_gives hu _ _ _ _)
    split
    · exact settle_gives _ (writeBool_gives hu _ _ _)
    split
    · exact settle_gives _ (writeBool_gives hu _ _ _)
    split
    · exact act_stays _ hu.sync _
    split
    · exact act_stays _ hu.sync _
    split
    · exact act_stays _ hu.sync _
    split
    · exact act_stays _ hu.sync _
    · trivial

/-- The converter's actions return, and they consume what they say they have consumed. -/
theorem fair (F : Nat) : Fair (callbacks F) F (fun _ => True) := by
  apply fair_of
  intro p path b b' a s h hu
  have hrej : ∀ c, reject c b = (b', some a) → Gives s (a s b') := by
    intro c hc
    simp only [reject, Prod.mk.injEq, Option.some.injEq] at hc
    rw [← hc.2]; trivial
  have hact : ∀ (f : ToNormal → Step) (b1 : ToNormal), (b1, some (act f .none)) = (b', some a) → Gives s (a s b') := by
    intro f b1 hc
    simp only [Prod.mk.injEq, Option.some.injEq] at hc
    rw [← hc.2]; exact act_stays _ hu.sync _
  have hkey : ∀ (b1 : ToNormal), (b1, some (onTypeKey F)) = (b', some a) → Gives s (a s b') := by
    intro b1 hc
    simp only [Prod.mk.injEq, Option.some.injEq] at hc
    rw [← hc.2]; exact onTypeKey_gives hu _
  have hno : ∀ (b1 : ToNormal), (b1, none) = (b', some a) → Gives s (a s b') := by
    intro b1 hc; simp at hc
  cases p with
  | object =>
    simp only [callbacks, find, findObject] at h
    repeat' split at h
    all_goals first | exact hno _ h | exact hrej _ h | exact hact _ _ h
  | none =>
    simp only [callbacks, find, findKey] at h
    repeat' split at h
    all_goals first | exact hno _ h | exact hrej _ h | exact hact _ _ h | exact hkey _ h
  | array =>
    simp only [callbacks, find, findArray] at h
    repeat' split at h
    all_goals first | exact hno _ h | exact hrej _ h
  | atom =>
    simp only [callbacks, find, findAtom] at h
    split at h
    · exact hrej _ h
    · split at h
      · simp only [Prod.mk.injEq, Option.some.injEq] at h
        rw [← h.2]
        split <;> exact writeString_gives hu _ _ _ _
      · exact hrej _ h

end ToNormal

/-- `U8Pool::new` returns a pool that can be used, or an error. -/
theorem pool_returns (cb : Bytes) (n : Nat) : (∃ pool R, U8Pool.new cb n = .ok pool ∧ Holds pool R []) ∨ ∃ e, U8Pool.new cb n = .err e := by
  rcases h : U8Pool.new cb n with pool | e | _
  · exact .inl ⟨pool, ⟨_, _, _⟩, rfl, U8Pool.Rel.new h⟩
  · exact .inr ⟨e, rfl⟩
  · exfalso
    unfold U8Pool.new at h
    split at h
    · simp at h
    split at h
    · simp at h
    dsimp only at h
    split at h <;> simp at h

/-- **C58** (partial). The full property is that `convert_ddb_to_normal` returns `Ok` or an error, whatever the input, the reader, the
writer and the two buffers are. Here the buffer for the input has at least eight bytes; with seven bytes it can panic, see `C58_panic`.
This is about a build without overflow checks; with them, `output_depth -= 1` can panic, see `C54_underflow`. -/
theorem C58_returns_partial (F : Nat) (reader : Reader) (d : Dest) (rb cb : Bytes) (pretty unbuffered asWrapper : Bool)
    (h8 : 8 ≤ rb.length) (hf : 2 * reader.size + 2 ≤ F) (n : Nat) (hn : 2 * reader.pending.length + 2 ≤ n) :
    (convertDdbToNormal n F reader d rb cb pretty unbuffered asWrapper).2 = .ok ∨
    ∃ e position, (convertDdbToNormal n F reader d rb cb pretty unbuffered asWrapper).2 = .err e position := by
  unfold convertDdbToNormal
  rcases pool_returns cb 68 with ⟨pool, R, hp, hl⟩ | ⟨e, hp⟩
  · rw [hp]
    have hrest : (RJ.new reader rb).rest = reader.pending := Verif.RJiter.rest_new _ _
    have := C56_returns_partial (ToNormal.fair F) (opt := ⟨[], false⟩) (by simp)
      (st := ⟨.new reader rb, .new d pretty unbuffered asWrapper, pool⟩) (usable_new reader rb F h8 hf) trivial (by simp) hl
      (by simp only; rw [hrest]; exact hn)
    simp only
    rcases hx : scan n F (ToNormal.callbacks F) ⟨[], false⟩ ⟨.new reader rb, .new d pretty unbuffered asWrapper, pool⟩ with
      ⟨st, u | e | _ | _⟩
    · exact .inl rfl
    · simp only [report]
      cases st.baton.lastError <;> exact .inr ⟨_, _, rfl⟩
    · rw [hx] at this; simp at this
    · rw [hx] at this; simp at this
  · rw [hp]
    exact .inr ⟨_, _, rfl⟩

/-- `{"a":{"S":"b"]` byte by byte, then an error of the reader, with a writer that fails at the third call: the error of the writer is
returned; with a writer that does not fail, the error of the reader is. -/
example : 2 * Reader.size (oneByOne [123, 34, 97, 34, 58, 123, 34, 83, 34, 58, 34, 98, 34, 93] ++ [.fail 5]) + 2 ≤ 100 ∧
    2 * (Reader.pending (oneByOne [123, 34, 97, 34, 58, 123, 34, 83, 34, 58, 34, 98, 34, 93] ++ [.fail 5])).length + 2 ≤ 100 ∧
    (convertDdbToNormal 100 100 (oneByOne [123, 34, 97, 34, 58, 123, 34, 83, 34, 58, 34, 98, 34, 93] ++ [.fail 5])
      ⟨⟨[], [none, none, some ⟨9, 0⟩]⟩, []⟩ (List.replicate 8 0) (List.replicate 400 0) true true false).2 = .err (.io 9 "writing indentation") 5 ∧
    (convertDdbToNormal 100 100 (oneByOne [123, 34, 97, 34, 58, 123, 34, 83, 34, 58, 34, 98, 34, 93] ++ [.fail 5])
      ⟨⟨[], []⟩, []⟩ (List.replicate 8 0) (List.replicate 400 0) true true false).2 =
      .err (.scan (.rjiter ⟨.io 5, 1⟩)) 1 :=
  ⟨by decide, by decide, by decide +kernel, by decide +kernel⟩

/-- Negation of property C58, with a buffer of seven bytes: `{"a":{"S":"\u0041"}}` makes the converter panic. -/
theorem C58_panic :
    (convertDdbToNormal 100 100 [.data 123 [34, 97, 34, 58, 123, 34, 83, 34, 58, 34, 92, 117, 48, 48, 52, 49, 34, 125, 125]]
      ⟨⟨[], []⟩, []⟩ (List.replicate 7 0) (List.replicate 400 0) false false false).2 = .panic := by
  decide +kernel

end Verif.Ddb
