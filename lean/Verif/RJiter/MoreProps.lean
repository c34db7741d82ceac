import Verif.RJiter.More
import Verif.RJiter.OpLemmas

/-!
# An answer does not change with what arrives later (C109)

The specification is `RJ.more R s`: the parser in the state `s`, but with `R` to come behind all that the reader of `s` has to give. `Stays`: if the
call returns `Ok(v)` and leaves the parser in `s'`, then with `R` to come it returns `Ok(v)` and leaves the parser in `s'`, with `R` to come. `R`
is any continuation: data, failures, or both. With a failure, this says that the call has not asked for more than it had.
-/

namespace Verif.RJiter

open Buffer

namespace RJ

section
variable {s : RJ} (R : Reader) (fuel : Nat) (h : s.Sync)
include h

/-- **C109**, for the calls on everything but numbers and whole values. -/
theorem C109_calls :
    Stays R (s.peek fuel) ((s.more R).peek fuel) ∧
    Stays R (s.knownNull fuel) ((s.more R).knownNull fuel) ∧ Stays R (s.nextNull fuel) ((s.more R).nextNull fuel) ∧
    (∀ pk, Stays R (s.knownBool fuel pk) ((s.more R).knownBool fuel pk)) ∧ Stays R (s.nextBool fuel) ((s.more R).nextBool fuel) ∧
    Stays R (s.knownStr fuel) ((s.more R).knownStr fuel) ∧ Stays R (s.nextStr fuel) ((s.more R).nextStr fuel) ∧
    Stays R (s.knownBytes fuel) ((s.more R).knownBytes fuel) ∧ Stays R (s.nextBytes fuel) ((s.more R).nextBytes fuel) ∧
    Stays R (s.knownArray fuel) ((s.more R).knownArray fuel) ∧ Stays R (s.nextArray fuel) ((s.more R).nextArray fuel) ∧
    Stays R (s.arrayStep fuel) ((s.more R).arrayStep fuel) ∧
    Stays R (s.knownObject fuel) ((s.more R).knownObject fuel) ∧ Stays R (s.nextObject fuel) ((s.more R).nextObject fuel) ∧
    Stays R (s.nextObjectBytes fuel) ((s.more R).nextObjectBytes fuel) ∧
    Stays R (s.nextKey fuel) ((s.more R).nextKey fuel) ∧ Stays R (s.nextKeyBytes fuel) ((s.more R).nextKeyBytes fuel) := by
  have one : ∀ {α : Type} {f : JFn α}, (∃ n e, f [] = (n, .error e)) →
      Stays R (s.loopUntilSuccess fuel f none false) ((s.more R).loopUntilSuccess fuel f none false) :=
    fun hf => (loopUntilSuccess_meets R fuel h (needs_none hf)).stays
  have two : ∀ {α : Type} {f : JFn α} (t : Byte), (∃ n e, f [] = (n, .error e)) → (∃ n e, f [t] = (n, .error e)) →
      Stays R (s.loopUntilSuccess fuel f (some t) false) ((s.more R).loopUntilSuccess fuel f (some t) false) :=
    fun t hf ht => (loopUntilSuccess_meets R fuel h (needs_some hf ht)).stays
  exact ⟨one ⟨_, _, rfl⟩, one ⟨_, _, rfl⟩, one ⟨_, _, rfl⟩, fun pk => one (knownBool_needs pk).1, one ⟨_, _, rfl⟩, one ⟨_, _, rfl⟩, one ⟨_, _, rfl⟩,
    one ⟨_, _, rfl⟩, one ⟨_, _, rfl⟩, two 91 ⟨_, _, rfl⟩ ⟨_, _, rfl⟩, two 91 ⟨_, _, rfl⟩ ⟨_, _, rfl⟩, two 44 ⟨_, _, rfl⟩ ⟨_, _, rfl⟩,
    two 123 ⟨_, _, rfl⟩ ⟨_, _, rfl⟩, two 123 ⟨_, _, rfl⟩ ⟨_, _, rfl⟩, two 123 ⟨_, _, rfl⟩ ⟨_, _, rfl⟩, two 44 ⟨_, _, rfl⟩ ⟨_, _, rfl⟩,
    two 44 ⟨_, _, rfl⟩ ⟨_, _, rfl⟩⟩

/-- **C109**, for numbers and whole values: unless the input ends with the value. -/
theorem C109_values_partial :
    StaysIn R (s.nextNumberBytes fuel) ((s.more R).nextNumberBytes fuel) ∧
    (∀ pk, StaysIn R (s.knownInt fuel pk) ((s.more R).knownInt fuel pk)) ∧ StaysIn R (s.nextInt fuel) ((s.more R).nextInt fuel) ∧
    (∀ pk, StaysIn R (s.knownFloat fuel pk) ((s.more R).knownFloat fuel pk)) ∧ StaysIn R (s.nextFloat fuel) ((s.more R).nextFloat fuel) ∧
    (∀ pk, StaysIn R (s.knownNumber fuel pk) ((s.more R).knownNumber fuel pk)) ∧ StaysIn R (s.nextNumber fuel) ((s.more R).nextNumber fuel) ∧
    (∀ pk, StaysIn R (s.knownValue fuel pk) ((s.more R).knownValue fuel pk)) ∧ StaysIn R (s.nextValue fuel) ((s.more R).nextValue fuel) ∧
    (∀ pk, StaysIn R (s.knownSkip fuel pk) ((s.more R).knownSkip fuel pk)) ∧ StaysIn R (s.nextSkip fuel) ((s.more R).nextSkip fuel) := by
  have one : ∀ {α : Type} {f : JFn α}, (∃ n e, f [] = (n, .error e)) →
      StaysIn R (s.loopUntilSuccess fuel f none true) ((s.more R).loopUntilSuccess fuel f none true) :=
    fun hf => (loopUntilSuccess_meets R fuel h (needs_none hf)).staysIn
  exact ⟨one ⟨_, _, rfl⟩, fun pk => one (knownNum_nil ⟨_, _, rfl⟩ pk), one ⟨_, _, rfl⟩, fun pk => one (knownNum_nil ⟨_, _, rfl⟩ pk), one ⟨_, _, rfl⟩,
    fun pk => one (knownNum_nil ⟨_, _, rfl⟩ pk), one ⟨_, _, rfl⟩, fun pk => one (knownWhole_nil ⟨_, _, rfl⟩ ⟨_, _, rfl⟩ pk), one ⟨_, _, rfl⟩,
    fun pk => one (knownWhole_nil ⟨_, _, rfl⟩ ⟨_, _, rfl⟩ pk), one ⟨_, _, rfl⟩⟩

/-- **C109**, for `skip_n_bytes`, if all the bytes were there. -/
theorem C109_skip_n {n : Nat} {s' : RJ} (hr : s.skipNBytes fuel n = (s', .ok n)) :
    (s.more R).skipNBytes fuel n = (s'.more R, .ok n) := by
  have hm := skipNLoop_meets R fuel s.b n s.jidx 0 h.idx h.ok
  simp only [skipNBytes, skipN] at hr ⊢
  rw [show (s.more R).b = s.b.more R from rfl, show (s.more R).jidx = s.jidx from rfl]
  rcases hm with hm | ⟨_, p, t, h1, h2⟩
  · rw [hm]
    rcases hx : skipNLoop fuel s.b n s.jidx 0 with ⟨b1, ⟨p, t⟩ | e | _ | _⟩
    · rw [hx] at hr
      simp only [Prod.mk.injEq, Res.ok.injEq] at hr ⊢
      obtain ⟨rfl, rfl⟩ := hr
      rw [shift_more]
      exact ⟨rfl, rfl⟩
    all_goals rw [hx] at hr; simp at hr
  · rcases hx : skipNLoop fuel s.b n s.jidx 0 with ⟨b1, r⟩
    rw [hx] at hr h1
    simp only at h1
    subst h1
    simp only [Prod.mk.injEq, Res.ok.injEq] at hr
    omega

variable (hf : s.b.reader.size < fuel)
include hf

/-- **C109**, for `lookahead_n`, if all the bytes were there. -/
theorem C109_lookahead_n {n : Nat} {s' : RJ} {l : Bytes} (hr : s.lookaheadN fuel n = (s', .ok l)) (hl : l.length = n) :
    (s.more R).lookaheadN fuel n = (s'.more R, .ok l) := by
  have hlen : n ≤ s.rest.length := by
    rcases lookaheadN_spec s n fuel h hf with ⟨s1, e, _⟩ | ⟨_, _, e, _⟩ | ⟨_, _, _, e, _⟩
    all_goals rw [e] at hr
    · simp only [Prod.mk.injEq, Res.ok.injEq] at hr
      have := hr.2 ▸ hl
      rw [List.length_take] at this
      omega
    all_goals simp at hr
  have hm := collectCountLoop_meets R n true fuel s.b s.jidx false h.idx h.ok
  have hp := collectCount_spec n s.jidx true s.b fuel h.ok h.idx hf
  simp only [lookaheadN] at hr ⊢
  rw [show (s.more R).b = s.b.more R from rfl, show (s.more R).jidx = s.jidx from rfl]
  rw [show collectCountLoop n true fuel s.b (s.jidx + n) s.jidx false = s.b.collectCount fuel n s.jidx true from rfl,
    show collectCountLoop n true fuel (s.b.more R) (s.jidx + n) s.jidx false = (s.b.more R).collectCount fuel n s.jidx true from rfl] at hm
  rcases hm with hm | ⟨h1, c, e, h2, h3⟩
  · rw [hm]
    rcases hx : s.b.collectCount fuel n s.jidx true with ⟨b1, ⟨p, t⟩ | e | _ | _⟩
    · rw [hx] at hr
      simp only at hr ⊢
      rw [lookaheadEnd_more, hr]
    all_goals rw [hx] at hr; simp at hr
  · obtain ⟨k, hfr, _, ⟨e', h4, _⟩ | ⟨x, h4, _⟩ | ⟨_, x, h4, _⟩⟩ := hp
    · rw [h4] at h2
      simp only [Res.ok.injEq, Prod.mk.injEq] at h2
      obtain ⟨rfl, rfl⟩ := h2
      have h5 := congrArg List.length hfr.rest
      rw [h1] at h5
      have h6 : s.rest = s.b.valid.drop s.jidx ++ s.b.reader.pending := rfl
      rw [← h6] at h5
      simp only [Reader.pending, List.append_nil, List.length_drop, Buffer.valid, List.length_take] at h5
      omega
    all_goals rw [h4] at h2; simp at h2

/-- **C109**, for `lookahead_while`, if something follows that does not match. -/
theorem C109_lookahead_while {p : Byte → Bool} {s' : RJ} {l : Bytes} (hr : s.lookaheadWhile fuel p = (s', .ok l)) (hl : l ≠ s.rest) :
    (s.more R).lookaheadWhile fuel p = (s'.more R, .ok l) := by
  have hlen : s.rest.takeWhile p ≠ s.rest := by
    rcases lookaheadWhile_spec s p fuel h hf with ⟨s1, e, _⟩ | ⟨_, _, e, _⟩ | ⟨_, _, _, e, _⟩
    all_goals rw [e] at hr
    · simp only [Prod.mk.injEq, Res.ok.injEq] at hr
      rw [hr.2]; exact hl
    all_goals simp at hr
  have hm := collectWhile_meets R fuel s.b p s.jidx true
  have hp := collectWhile_spec p s.jidx true s.b fuel h.ok h.idx hf
  simp only [lookaheadWhile] at hr ⊢
  rw [show (s.more R).b = s.b.more R from rfl, show (s.more R).jidx = s.jidx from rfl]
  rcases hm with hm | ⟨h1, c, h2⟩
  · rw [hm]
    rcases hx : s.b.collectWhile fuel p s.jidx true with ⟨b1, ⟨p, t⟩ | e | _ | _⟩
    · rw [hx] at hr
      simp only at hr ⊢
      rw [lookaheadEnd_more, hr]
    all_goals rw [hx] at hr; simp at hr
  · obtain ⟨k, hfr, _, ⟨e', h4, h7, h8, h9, _⟩ | ⟨x, h4, _⟩ | ⟨_, x, h4, _⟩⟩ := hp
    · rw [h4] at h2
      simp only [Res.ok.injEq, Prod.mk.injEq] at h2
      obtain ⟨rfl, rfl⟩ := h2
      have h5 := hfr.rest
      rw [h1] at h5
      rw [List.take_of_length_le (by simp only [Buffer.valid, List.length_drop, List.length_take]; omega)] at h9
      simp only [Reader.pending, List.append_nil] at h5
      exact absurd (h9.symm.trans h5) hlen
    all_goals rw [h4] at h2; simp at h2

/-- **C109**, for `known_skip_token`. -/
theorem C109_known_skip_token (hb : 0 < s.b.buf.length) (t : Bytes) : Stays R (s.knownSkipToken fuel t) ((s.more R).knownSkipToken fuel t) := by
  intro s' v hr
  simp only [knownSkipToken] at hr ⊢
  rcases hx : s.lookaheadN fuel t.length with ⟨s1, l | e | _ | _⟩
  · rw [hx] at hr
    simp only at hr
    split at hr
    · rename_i hl
      have h1 := C109_lookahead_n R fuel h hf hx (by rw [hl])
      rw [h1]
      simp only [hl, if_true]
      have hmv : s.Moved s1 0 ∧ s.rest.take t.length = l := by
        rcases lookaheadN_spec s t.length fuel h hf with ⟨s2, e, hm⟩ | ⟨_, _, e, _⟩ | ⟨_, _, _, e, _⟩
        all_goals rw [e] at hx
        · simp only [Prod.mk.injEq, Res.ok.injEq] at hx
          exact ⟨hx.1 ▸ hm, hx.2⟩
        all_goals simp at hx
      have hsz := hmv.1.size
      have hlen : min t.length s1.rest.length = t.length := by
        have := congrArg List.length hmv.2
        rw [List.length_take, hl] at this
        rw [hmv.1.rest, List.drop_zero]
        exact this
      rcases skipNBytes_spec s1 t.length fuel hmv.1.sync (by rw [hmv.1.buf]; exact hb) (by omega) with ⟨s2, e, _⟩ | ⟨_, _, _, e, _⟩
      · rw [hlen] at e
        rw [C109_skip_n R fuel hmv.1.sync e]
        rw [e] at hr
        simp only [Prod.mk.injEq] at hr ⊢
        exact ⟨by rw [hr.1], trivial⟩
      · rw [e] at hr; simp at hr
    · simp at hr
  all_goals rw [hx] at hr; simp at hr

end

/-- **C109**, for `write_long_bytes`, with what was written. -/
theorem C109_write_long_bytes (R : Reader) (fuel : Nat) {s s' : RJ} {w w' : Writer} (hr : s.writeLongBytes fuel w = ((s', w'), .ok ())) :
    (s.more R).writeLongBytes fuel w = ((s'.more R, w'), .ok ()) := by
  rcases handleLong_meets R .raw fuel s w with h | h
  · rw [show s.handleLong .raw fuel w = ((s', w'), .ok ()) from hr] at h; exact h
  · exact absurd (by rw [show s.handleLong .raw fuel w = ((s', w'), .ok ()) from hr]) (h ())

/-- **C109**, for `write_long_str`, with what was written. -/
theorem C109_write_long_str (R : Reader) (fuel : Nat) {s s' : RJ} {w w' : Writer} (hr : s.writeLongStr fuel w = ((s', w'), .ok ())) :
    (s.more R).writeLongStr fuel w = ((s'.more R, w'), .ok ()) := by
  rcases handleLong_meets R .str fuel s w with h | h
  · rw [show s.handleLong .str fuel w = ((s', w'), .ok ()) from hr] at h; exact h
  · exact absurd (by rw [show s.handleLong .str fuel w = ((s', w'), .ok ()) from hr]) (h ())

/-- The text ` "a\n` `b",1`: what the calls above return, with what is to come changed from nothing to `2`. -/
example : (RJ.new [.data 32 [34, 97, 92, 110], .data 98 [34, 44, 49]] (List.replicate 8 0)).Sync ∧
    ((RJ.new [.data 32 [34, 97, 92, 110], .data 98 [34, 44, 49]] (List.replicate 8 0)).nextStr 40).2 = .ok [97, 10, 98] ∧
    (((RJ.new [.data 32 [34, 97, 92, 110], .data 98 [34, 44, 49]] (List.replicate 8 0)).more [.data 50 []]).nextStr 40).2 = .ok [97, 10, 98] ∧
    ((RJ.new [.data 32 [34, 97, 92, 110], .data 98 [34, 44, 49]] (List.replicate 8 0)).skipNBytes 40 8).2 = .ok 8 ∧
    ((RJ.new [.data 32 [34, 97, 92, 110], .data 98 [34, 44, 49]] (List.replicate 8 0)).lookaheadN 40 6).2 = .ok [32, 34, 97, 92, 110, 98] ∧
    ((RJ.new [.data 32 [34, 97, 92, 110], .data 98 [34, 44, 49]] (List.replicate 8 0)).lookaheadWhile 40 (· ≠ 98)).2 = .ok [32, 34, 97, 92, 110] ∧
    ((RJ.new [.data 32 [34, 97, 92, 110], .data 98 [34, 44, 49]] (List.replicate 8 0)).knownSkipToken 40 [32, 34]).2 = .ok () ∧
    ((RJ.new [.data 34 [97, 92, 110], .data 98 [34, 44, 49]] (List.replicate 8 0)).writeLongStr 40 ⟨[], []⟩).2 = .ok () ∧
    ((RJ.new [.data 34 [97, 92, 110], .data 98 [34, 44, 49]] (List.replicate 8 0)).writeLongBytes 40 ⟨[], []⟩).2 = .ok () :=
  ⟨sync_new _ _, by decide +kernel, by decide +kernel, by decide +kernel, by decide +kernel, by decide +kernel, by decide +kernel, by decide +kernel,
    by decide +kernel⟩

/-- A number at the end of the input is continued by what arrives later, and the whole of a value that has arrived is not returned before
more is asked for: `12` and `[1]` behind a space. -/
theorem C109_values_end :
    ((RJ.new [.data 32 [49, 50]] (List.replicate 8 0)).nextNumberBytes 20).2 = .ok [49, 50] ∧
    (((RJ.new [.data 32 [49, 50]] (List.replicate 8 0)).more [.data 51 [44]]).nextNumberBytes 20).2 = .ok [49, 50, 51] ∧
    ((RJ.new [.data 32 [91, 49, 93]] (List.replicate 8 0)).nextValue 20).2 = .ok (.arr [.num [49]]) ∧
    (((RJ.new [.data 32 [91, 49, 93]] (List.replicate 8 0)).more [.fail 7]).nextValue 20).2 = .err ⟨.io 7, 3⟩ :=
  ⟨by decide +kernel, by decide +kernel, rfl, rfl⟩

end RJ

/-! ### Sessions -/

/-- The call can be answered from the input before its end; `s'` is the state after the call. Numbers and whole values need a byte behind them,
the functions that count bytes all of them, `lookahead_while` a byte that does not match, and `finish` asks for the end itself. -/
def Op.Settled (s s' : RJ) : Op → Prop
  | .nextNumberBytes | .knownFloat _ | .knownInt _ | .knownNumber _ | .knownSkip _ | .knownValue _ | .nextFloat | .nextInt | .nextNumber
  | .nextSkip | .nextValue => s'.rest ≠ []
  | .lookaheadN n | .skipNBytes n => n ≤ s.rest.length
  | .lookaheadWhile p => s.rest.takeWhile p ≠ s.rest
  | .finish => False
  | _ => True

/-- Calls, with the fuel of each, that all return `Ok`. -/
inductive Asks : RJ → List (Op × Nat) → RJ → Prop where
  | nil (s : RJ) : Asks s [] s
  | cons {s s' s'' : RJ} {op : Op} {fuel : Nat} {l : List (Op × Nat)} (hrun : op.run fuel s = (s', .ok ())) (h : Asks s' l s'') :
      Asks s ((op, fuel) :: l) s''

/-- Calls that all return `Ok`, and that can be answered from the input before its end. -/
inductive Settles : RJ → List (Op × Nat) → RJ → Prop where
  | nil (s : RJ) : Settles s [] s
  | cons {s s' s'' : RJ} {op : Op} {fuel : Nat} {l : List (Op × Nat)} (hf : enoughFuel s fuel) (hrun : op.run fuel s = (s', .ok ()))
      (hs : op.Settled s s') (h : Settles s' l s'') : Settles s ((op, fuel) :: l) s''

theorem RJ.Stays.void {α : Type} {R : Reader} {x y : RJ × Res α} {s' : RJ} (h : RJ.Stays R x y) (hx : (x.1, x.2.void) = (s', .ok ())) :
    (y.1, y.2.void) = (s'.more R, .ok ()) := by
  rcases x with ⟨s1, v | e | _ | _⟩ <;> simp only [Res.void, Prod.mk.injEq, reduceCtorEq, and_false, and_true] at hx
  rw [h s' v (by rw [hx])]
  rfl

theorem RJ.StaysIn.void {α : Type} {R : Reader} {x y : RJ × Res α} {s' : RJ} (h : RJ.StaysIn R x y) (hx : (x.1, x.2.void) = (s', .ok ()))
    (hne : s'.rest ≠ []) : (y.1, y.2.void) = (s'.more R, .ok ()) := by
  rcases x with ⟨s1, v | e | _ | _⟩ <;> simp only [Res.void, Prod.mk.injEq, reduceCtorEq, and_false, and_true] at hx
  rw [h s' v (by rw [hx]) hne]
  rfl

theorem Op.run_more (R : Reader) (op : Op) {fuel : Nat} {s s' : RJ} (h : s.Sync) (hl : 2 ≤ s.b.buf.length) (hf : enoughFuel s fuel)
    (hr : op.run fuel s = (s', .ok ())) (hs : op.Settled s s') : op.run fuel (s.more R) = (s'.more R, .ok ()) := by
  obtain ⟨c1, c2, c3, c4, c5, c6, c7, c8, c9, c10, c11, c12, c13, c14, c15, c16, c17⟩ := RJ.C109_calls R fuel h
  obtain ⟨v1, v2, v3, v4, v5, v6, v7, v8, v9, v10, v11⟩ := RJ.C109_values_partial R fuel h
  have hf' : s.b.reader.size < fuel := by unfold enoughFuel at hf; omega
  cases op with
  | peek => exact c1.void hr
  | knownNull => exact c2.void hr
  | nextNull => exact c3.void hr
  | knownBool pk => exact (c4 pk).void hr
  | nextBool => exact c5.void hr
  | knownStr => exact c6.void hr
  | nextStr => exact c7.void hr
  | knownBytes => exact c8.void hr
  | nextBytes => exact c9.void hr
  | knownArray => exact c10.void hr
  | nextArray => exact c11.void hr
  | arrayStep => exact c12.void hr
  | knownObject => exact c13.void hr
  | nextObject => exact c14.void hr
  | nextObjectBytes => exact c15.void hr
  | nextKey => exact c16.void hr
  | nextKeyBytes => exact c17.void hr
  | nextNumberBytes => exact v1.void hr hs
  | knownInt pk => exact (v2 pk).void hr hs
  | nextInt => exact v3.void hr hs
  | knownFloat pk => exact (v4 pk).void hr hs
  | nextFloat => exact v5.void hr hs
  | knownNumber pk => exact (v6 pk).void hr hs
  | nextNumber => exact v7.void hr hs
  | knownValue pk => exact (v8 pk).void hr hs
  | nextValue => exact v9.void hr hs
  | knownSkip pk => exact (v10 pk).void hr hs
  | nextSkip => exact v11.void hr hs
  | finish => exact hs.elim
  | knownSkipToken t => exact RJ.C109_known_skip_token R fuel h hf' (by omega) t s' () hr
  | skipNBytes n =>
    refine RJ.Stays.void ?_ hr
    intro s1 v hx
    rcases RJ.skipNBytes_spec s n fuel h (by omega) hf' with ⟨s2, e, _⟩ | ⟨_, _, _, e, _⟩
    · rw [Nat.min_eq_left hs] at e
      rw [e] at hx
      simp only [Prod.mk.injEq, Res.ok.injEq] at hx
      obtain ⟨rfl, rfl⟩ := hx
      exact RJ.C109_skip_n R fuel h e
    · rw [e] at hx; simp at hx
  | lookaheadN n =>
    refine RJ.Stays.void ?_ hr
    intro s1 v hx
    refine RJ.C109_lookahead_n R fuel h hf' hx ?_
    rcases RJ.lookaheadN_spec s n fuel h hf' with ⟨s2, e, _⟩ | ⟨_, _, e, _⟩ | ⟨_, _, _, e, _⟩
    all_goals rw [e] at hx
    · simp only [Prod.mk.injEq, Res.ok.injEq] at hx
      rw [← hx.2, List.length_take]
      exact Nat.min_eq_left hs
    all_goals simp at hx
  | lookaheadWhile p =>
    refine RJ.Stays.void ?_ hr
    intro s1 v hx
    refine RJ.C109_lookahead_while R fuel h hf' hx ?_
    rcases RJ.lookaheadWhile_spec s p fuel h hf' with ⟨s2, e, _⟩ | ⟨_, _, e, _⟩ | ⟨_, _, _, e, _⟩
    all_goals rw [e] at hx
    · simp only [Prod.mk.injEq, Res.ok.injEq] at hx
      rw [← hx.2]; exact hs
    all_goals simp at hx
  | writeLongBytes w =>
    simp only [Op.run] at hr ⊢
    rcases hx : s.writeLongBytes fuel w with ⟨⟨s1, w1⟩, r⟩
    rw [hx] at hr
    simp only [Prod.mk.injEq] at hr
    obtain ⟨rfl, rfl⟩ := hr
    rw [RJ.C109_write_long_bytes R fuel hx]
  | writeLongStr w =>
    simp only [Op.run] at hr ⊢
    rcases hx : s.writeLongStr fuel w with ⟨⟨s1, w1⟩, r⟩
    rw [hx] at hr
    simp only [Prod.mk.injEq] at hr
    obtain ⟨rfl, rfl⟩ := hr
    rw [RJ.C109_write_long_str R fuel hx]

theorem Settles.more (R : Reader) {s s' : RJ} {l : List (Op × Nat)} (hh : Settles s l s') (h : s.Sync) (hl : 2 ≤ s.b.buf.length) :
    Asks (s.more R) l (s'.more R) := by
  induction hh with
  | nil s => exact .nil _
  | @cons s s1 s2 op fuel l hf hrun hs _ ih =>
    have hm := (op.run_res s fuel h hl hf).2
    rw [hrun] at hm
    obtain ⟨n, hm⟩ := hm (.ok _)
    exact .cons (op.run_more R h hl hf hrun hs) (ih hm.sync (by rw [hm.buf]; exact hl))

/-- **C109**, for sessions: a client that was answered from `reader` is answered in the same way if the input goes on with `R`, and the parser is in
the same state, with `R` to come. -/
theorem C109_session_partial (reader R : Reader) (buf : Bytes) (hb : 2 ≤ buf.length) {l : List (Op × Nat)} {s : RJ}
    (h : Settles (.new reader buf) l s) : Asks (.new (reader ++ R) buf) l (s.more R) :=
  h.more R (sync_new reader buf) hb

/-- `[12, nul` `l,"a`: the array is entered, the number, the comma and `null` are read. -/
example : ∃ s, Settles (.new [.data 91 [49, 50, 44, 32, 110, 117, 108], .data 108 [44, 34, 97]] (List.replicate 8 0))
    [(.nextArray, 60), (.nextNumberBytes, 60), (.arrayStep, 60), (.knownNull, 60), (.lookaheadN 2, 60)] s ∧ s.rest = [44, 34, 97] :=
  ⟨_, .cons (by unfold enoughFuel; decide) rfl trivial
    (.cons (by unfold enoughFuel; decide) rfl (by show RJ.rest _ ≠ []; decide)
      (.cons (by unfold enoughFuel; decide) rfl trivial
        (.cons (by unfold enoughFuel; decide) rfl trivial
          (.cons (by unfold enoughFuel; decide) rfl (by show 2 ≤ List.length (RJ.rest _); decide) (.nil _))))), by decide⟩

end Verif.RJiter
