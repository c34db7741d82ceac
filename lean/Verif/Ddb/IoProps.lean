import Verif.Scan.IoProps
import Verif.Ddb.NormalReturns
import Verif.Ddb.ToDdb

/-!
# Properties C63 and C64: what the converters do when the reader fails
-/

namespace Verif.Ddb

open Verif.U8Pool (Pool)
open Verif.RJiter (RJ Err Res Reader Writer Told ToldW oneByOne)
open Verif.Scan

/-! ## C63 -/

namespace ToNormal

variable {F : Nat} {s0 s : RJ} {c : Prop}

theorem act_owns (f : ToNormal → Step) (op : StreamOp) (h : s0.b.reader.faults = s.b.reader.faults) (b : ToNormal) : Owns c s0 (act f op s b) := by
  unfold act Step.run
  rcases f b with ⟨b', _ | m⟩
  · cases op <;> exact .of h
  · exact .of h

theorem settle_owns (f : ToNormal → ToNormal) {x : (RJ × ToNormal) × Acted} (h : Owns c s x) : Owns c s (settle f x) := by
  rcases x with ⟨⟨s', b⟩, (_ | _ | m) | _ | _⟩ <;> exact h

theorem writeString_owns (quotes : Bool) (pc wc : String) (b : ToNormal) : Owns c s (writeString F quotes pc wc s b) := by
  unfold writeString
  have hp : Told s.b (s.peek F).1.b (s.peek F).2 := RJ.loopUntilSuccess_told _ _ _ _ _
  generalize s.peek F = x at hp ⊢
  rcases x with ⟨s1, ch | e | _ | _⟩
  · have hp' : s.b.reader.faults = s1.b.reader.faults := hp
    simp only
    split
    · exact .of hp'
    · unfold Step.run
      rcases b.writeComma.bind (quote quotes "writing opening quote") with ⟨b1, _ | m⟩
      · simp only [RJ.writeLongBytes]
        have hl := RJ.handleLong_toldW .raw F s1 b1.d.w
        generalize RJ.handleLong .raw F s1 b1.d.w = y at hl ⊢
        rcases y with ⟨⟨s2, w⟩, _ | e | _ | _⟩
        · exact act_owns _ _ (hp'.trans hl.1) _
        all_goals exact (Lost.of hp').trans (lost_of_toldW hl)
      · exact .of hp'
  all_goals exact lost_of_told hp

theorem writeBool_owns (output : Byte → Bytes × Option String) (name : String) (b : ToNormal) : Owns c s (writeBool F output name s b) := by
  unfold writeBool
  have hp : Told s.b (s.peek F).1.b (s.peek F).2 := RJ.loopUntilSuccess_told _ _ _ _ _
  generalize s.peek F = x at hp ⊢
  rcases x with ⟨s1, ch | e | _ | _⟩
  · have hp' : s.b.reader.faults = s1.b.reader.faults := hp
    simp only
    rcases output ch with ⟨bytes, _ | m⟩
    · simp only [Step.run]
      rcases b.writeComma with ⟨b1, _ | m⟩
      · have hl : Told s1.b (s1.knownBool F ch).1.b (s1.knownBool F ch).2 := RJ.loopUntilSuccess_told _ _ _ _ _
        simp only
        generalize s1.knownBool F ch = y at hl ⊢
        rcases y with ⟨s2, v | e | _ | _⟩
        · exact act_owns _ _ (hp'.trans hl) _
        all_goals exact (Lost.of hp').trans (lost_of_told hl)
      · exact .of hp'
    · exact .of hp'
  all_goals exact lost_of_told hp

theorem onTypeKey_owns (b : ToNormal) : Owns c s (onTypeKey F s b) := by
  unfold onTypeKey
  cases b.field with
  | none => exact .refl _ _
  | some key =>
    simp only
    repeat' split
    all_goals first
      | exact settle_owns _ (writeString_owns _ _ _ _)
      | exact settle_owns _ (writeBool_owns _ _ _)
      | exact act_owns _ _ rfl _
      | exact .refl _ _

/-- The converter's actions return an error if the reader fails. -/
theorem honest (c : Prop) (F : Nat) : Honest c (callbacks F) := by
  intro p ctx b b' a s h
  have hrej : ∀ m, reject m b = (b', some a) → Owns c s (a s b') := by
    intro m hc
    simp only [reject, Prod.mk.injEq, Option.some.injEq] at hc
    rw [← hc.2]; exact .refl _ _
  have hact : ∀ (f : ToNormal → Step) (b1 : ToNormal), (b1, some (act f .none)) = (b', some a) → Owns c s (a s b') := by
    intro f b1 hc
    simp only [Prod.mk.injEq, Option.some.injEq] at hc
    rw [← hc.2]; exact act_owns _ _ rfl _
  have hkey : ∀ (b1 : ToNormal), (b1, some (onTypeKey F)) = (b', some a) → Owns c s (a s b') := by
    intro b1 hc
    simp only [Prod.mk.injEq, Option.some.injEq] at hc
    rw [← hc.2]; exact onTypeKey_owns _
  have hno : ∀ (b1 : ToNormal), (b1, none) = (b', some a) → Owns c s (a s b') := by
    intro b1 hc; simp at hc
  cases p with
  | object =>
    simp only [callbacks, find, findObject] at h
    repeat' split at h
    all_goals first | exact hno _ h | exact hrej _ h | exact hact _ _ h
  | none =>
    simp only [callbacks, find, findKey] at h
    repeat' split at h
    all_goals first | exact hno _ h | exact hrej _ h | exact hact _ _ h | exact hkey _ h
  | array =>
    simp only [callbacks, find, findArray] at h
    repeat' split at h
    all_goals first | exact hno _ h | exact hrej _ h
  | atom =>
    simp only [callbacks, find, findAtom] at h
    split at h
    · exact hrej _ h
    · split at h
      · simp only [Prod.mk.injEq, Option.some.injEq] at h
        rw [← h.2]
        split <;> exact writeString_owns _ _ _ _
      · exact hrej _ h

end ToNormal

/-- **C63**: if the reader fails, `convert_ddb_to_normal` does not return `Ok`, whatever the input, the writer and the buffers are (the
buffer for the input has at least eight bytes). -/
theorem C63_not_ok (n F : Nat) (reader : Reader) (d : Dest) (rb cb : Bytes) (pretty unbuffered asWrapper : Bool) (h8 : 8 ≤ rb.length)
    (hf : 2 * reader.size + 2 ≤ F) (hfl : reader.faults ≠ []) :
    (convertDdbToNormal n F reader d rb cb pretty unbuffered asWrapper).2 ≠ .ok := by
  unfold convertDdbToNormal
  rcases pool_returns cb 68 with ⟨pool, R, hp, hl⟩ | ⟨e, hp⟩
  · rw [hp]
    have := C61_not_ok (ToNormal.honest True F) (ToNormal.fair F)
      (st := ⟨.new reader rb, .new d pretty unbuffered asWrapper, pool⟩) (usable_new reader rb F h8 hf) trivial hl n hfl
    simp only
    generalize scan n F (ToNormal.callbacks F) ⟨[], false⟩ ⟨.new reader rb, .new d pretty unbuffered asWrapper, pool⟩ = x at this ⊢
    rcases x with ⟨st, u | e | _ | _⟩
    · exact absurd rfl this
    · simp only [report]
      cases st.baton.lastError <;> simp
    · simp
    · simp
  · rw [hp]
    simp

/-- `{"a":{"BOOL":tr` a failure `ue}}`. -/
example : Reader.faults [.data 123 [34, 97, 34, 58, 123, 34, 66, 79, 79, 76, 34, 58, 116, 114], .fail 7, .data 117 [101, 125, 125]] = [7] ∧
    (convertDdbToNormal 100 100 [.data 123 [34, 97, 34, 58, 123, 34, 66, 79, 79, 76, 34, 58, 116, 114], .fail 7, .data 117 [101, 125, 125]]
      ⟨⟨[], []⟩, []⟩ (List.replicate 32 0) (List.replicate 2000 0) false false false).2 = .err (.rjiter (.io 7) "BOOL type") 13 :=
  ⟨rfl, by decide +kernel⟩

/-! ## C64 -/

namespace ToDdb

variable {F : Nat} {s0 s : RJ}

theorem act_owns (f : ToDdb → Step) (op : StreamOp) (h : Lost False s0.b.reader.faults s.b.reader.faults) (b : ToDdb) :
    Owns False s0 (act f op s b) := by
  unfold act Step.run
  rcases f b with ⟨b', _ | m⟩
  · cases op <;> exact h
  · exact h

theorem Owns.from {x : (RJ × ToDdb) × Acted} (h : Owns False s x) (h0 : Lost False s0.b.reader.faults s.b.reader.faults) : Owns False s0 x := by
  rcases x with ⟨⟨s', b⟩, (_ | _ | m) | _ | _⟩ <;> exact h0.trans h

theorem run_owns (x : Step) {k : Action ToDdb} (h : ∀ b, Owns False s (k s b)) : Owns False s (x.run s k) := by
  rcases x with ⟨b, _ | m⟩
  · exact h b
  · exact .refl _ _

theorem ignoring_owns {α : Type} (b : ToDdb) (f : ToDdb → Step) (op : StreamOp) {x : RJ × Res α} (h : Told s.b x.1.b x.2) :
    Owns False s (ignoring b (act f op) x) := by
  rcases x with ⟨s', v | e | _ | _⟩
  · exact act_owns _ _ (lost_of_told h) _
  · exact act_owns _ _ (lost_of_told h) _
  · exact lost_of_told h
  · exact lost_of_told h

theorem onString_owns (b : ToDdb) : Owns False s (onString F s b) := by
  refine run_owns _ fun b => ?_
  simp only [RJ.writeLongBytes]
  have hl := RJ.handleLong_toldW .raw F s b.d.w
  generalize RJ.handleLong .raw F s b.d.w = y at hl ⊢
  rcases y with ⟨⟨s2, w⟩, _ | e | _ | _⟩
  · exact act_owns _ _ (lost_of_toldW hl) _
  all_goals exact lost_of_toldW hl

theorem onBool_owns (b : ToDdb) : Owns False s (onBool F s b) := by
  unfold onBool
  have hp : Told s.b (s.peek F).1.b (s.peek F).2 := RJ.loopUntilSuccess_told _ _ _ _ _
  generalize s.peek F = x at hp ⊢
  rcases x with ⟨s1, ch | e | _ | _⟩
  · refine Owns.from (s := s1) (run_owns _ fun b => ?_) (lost_of_told hp)
    split
    · exact ignoring_owns _ _ _ (RJ.loopUntilSuccess_told _ _ _ _ _)
    split
    · exact ignoring_owns _ _ _ (RJ.loopUntilSuccess_told _ _ _ _ _)
    · exact .refl _ _
  all_goals exact lost_of_told hp

theorem onNull_owns (b : ToDdb) : Owns False s (onNull F s b) := by
  unfold onNull
  have hp : Told s.b (s.peek F).1.b (s.peek F).2 := RJ.loopUntilSuccess_told _ _ _ _ _
  generalize s.peek F = x at hp ⊢
  rcases x with ⟨s1, ch | e | _ | _⟩
  · refine Owns.from (s := s1) ?_ (lost_of_told hp)
    simp only
    split
    · exact .refl _ _
    · exact ignoring_owns _ _ _ (RJ.loopUntilSuccess_told _ _ _ _ _)
  all_goals exact lost_of_told hp

theorem onNumber_owns (b : ToDdb) : Owns False s (onNumber F s b) := by
  unfold onNumber
  have hp : Told s.b (s.nextNumberBytes F).1.b (s.nextNumberBytes F).2 := RJ.loopUntilSuccess_told _ _ _ _ _
  generalize s.nextNumberBytes F = x at hp ⊢
  rcases x with ⟨s1, ch | e | _ | _⟩
  · exact act_owns _ _ (lost_of_told hp) _
  all_goals exact lost_of_told hp

theorem onAtom_owns (b : ToDdb) : Owns False s (onAtom F s b) := by
  refine run_owns _ fun b => ?_
  have hp : Told s.b (s.peek F).1.b (s.peek F).2 := RJ.loopUntilSuccess_told _ _ _ _ _
  generalize s.peek F = x at hp ⊢
  rcases x with ⟨s1, ch | e | _ | _⟩
  · refine Owns.from (s := s1) ?_ (lost_of_told hp)
    simp only
    split
    · exact onString_owns _
    split
    · exact onBool_owns _
    split
    · exact onNull_owns _
    · exact onNumber_owns _
  all_goals exact lost_of_told hp

theorem onRootLiteral_owns (b : ToDdb) : Owns False s (onRootLiteral F s b) := by
  refine run_owns _ fun b => ?_
  have h := onAtom_owns (F := F) (s := s) b
  generalize onAtom F s b = x at h ⊢
  rcases x with ⟨⟨s', b⟩, (_ | _ | m) | _ | _⟩
  · exact act_owns _ _ h _
  · exact act_owns _ _ h _
  · exact act_owns _ _ h _
  · exact h
  · exact h

theorem honest (F : Nat) : Honest False (callbacks F) := by
  intro p ctx b b' a s h
  have ha : ∀ (f : ToDdb → Step) (b : ToDdb), Owns False s (act f .none s b) := fun f b => act_owns _ _ (.refl _ _) _
  simp only [callbacks, find] at h
  repeat' split at h
  all_goals simp only [Prod.mk.injEq, Option.some.injEq, reduceCtorEq, and_false] at h
  all_goals rw [← h.2]
  all_goals first
    | exact ha _ _
    | exact onAtom_owns _
    | exact onRootLiteral_owns _
    | exact run_owns _ fun b => onAtom_owns b

end ToDdb

/-- **C64** (partial). The full property is: if the reader fails, `convert_normal_to_ddb` does not return `Ok`, and it returns an I/O error
only if the reader (or the writer) failed. Here is a part of the second half: an I/O error that `scan` returned is a failure of the reader.
The first half is false, see `C64_twice` and `C64_wrong_error`. -/
theorem C64_real_partial (n F : Nat) (reader : Reader) (d : Dest) (rb : Bytes) (pool : Pool) (pretty unbuffered item : Bool) (k i : Nat)
    (h : (scan n F (ToDdb.callbacks F) ⟨[], false⟩ ⟨.new reader rb, .new d item pretty unbuffered, pool⟩).2 = .err (.rjiter ⟨.io k, i⟩)) :
    k ∈ reader.faults := by
  obtain ⟨l, e⟩ := C61_real (ToDdb.honest F) F ⟨[], false⟩ n _ k i h
  have e' : reader.faults = _ := e
  rw [e']; simp

/-- `[1,` a failure `2]`. -/
example : (convertNormalToDdb 50 50 [.data 91 [49, 44], .fail 7, .data 50 [93]] ⟨⟨[], []⟩, []⟩ (List.replicate 16 0) (List.replicate 2000 0)
    false false false).2 = .err (.scan (.rjiter ⟨.io 7, 1⟩)) 1 := by decide +kernel

/-- Negation of property C64: the reader fails once in the middle of `true`. The converter returns `Ok`, and it has written the document
twice: `{"BOOL":true}` and a newline, two times. `on_bool_value_toddb` ignores the error of `known_bool`. -/
theorem C64_twice :
    let x := convertNormalToDdb 50 50 [.data 116 [114], .fail 7, .data 117 [101, 32]] ⟨⟨[], []⟩, []⟩ (List.replicate 16 0)
      (List.replicate 2000 0) false false false
    x.2 = .ok ∧ x.1.d.w.out = [123, 34, 66, 79, 79, 76, 34, 58, 116, 114, 117, 101, 125, 10] ++
      [123, 34, 66, 79, 79, 76, 34, 58, 116, 114, 117, 101, 125, 10] := by decide +kernel

/-- Negation of property C64: the reader fails once in the middle of the `true` of `[true,1]`. The converter returns a syntax error of the
input at the position 1. -/
theorem C64_wrong_error :
    (convertNormalToDdb 50 50 [.data 91 [116, 114], .fail 7, .data 117 [101, 44, 49, 93]] ⟨⟨[], []⟩, []⟩ (List.replicate 16 0)
      (List.replicate 2000 0) false false false).2 = .err (.scan (.rjiter ⟨.json .expectedListCommaOrEnd, 1⟩)) 1 := by decide +kernel

end Verif.Ddb
