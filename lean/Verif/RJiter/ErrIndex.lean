import Verif.RJiter.Forward
import Verif.RJiter.Loose

/-!
# How far the index in an error can be off

The index that a parser call puts into an error is the position of the parser in the stream plus an offset in the buffer (see C24).
-/

namespace Verif.RJiter

open Buffer RJ Jiter

/-- `s` is a later state of `s0`: the position is inside of the buffer, it did not go back, and the stream still ends at the same place. -/
structure RJ.Near (s0 s : RJ) : Prop where
  loose : s0.Loose s
  stop : s.currentIndex + s.rest.length = s0.currentIndex + s0.rest.length

theorem RJ.Near.ofMoved {s0 s : RJ} {n : Nat} (h : s0.Moved s n) : s0.Near s :=
  ⟨.ofMoved h, by have := h.index; have := h.enough; have := congrArg List.length h.rest; rw [List.length_drop] at this; omega⟩

theorem RJ.Near.trans {s0 s1 s2 : RJ} (h1 : s0.Near s1) (h2 : s1.Near s2) : s0.Near s2 := ⟨h1.loose.trans h2.loose, h2.stop.trans h1.stop⟩

/-- The position did not go back, and is not behind the end. -/
theorem RJ.Near.index {s0 s : RJ} (h : s0.Near s) : s0.currentIndex ≤ s.currentIndex ∧ s.currentIndex ≤ s0.currentIndex + s0.rest.length := by
  have := h.stop; have := h.loose.less; omega

/-- Whatever was called, the number of bytes is the same. -/
theorem Reach.stop {s0 s : RJ} (h : Reach s0.b s.b) (ok : s0.b.nBytes ≤ s0.b.buf.length) (i0 : s0.jidx ≤ s0.b.nBytes) (i : s.jidx ≤ s.b.nBytes) :
    s.currentIndex + s.rest.length = s0.currentIndex + s0.rest.length := by
  obtain ⟨out, h⟩ := h
  obtain ⟨h1, _, h3, _, h5, _⟩ := h.counts ok
  have h5 := h5.length_eq
  simp only [List.length_append] at h5
  rw [valid_length h1, valid_length ok] at h5
  simp only [RJ.currentIndex, RJ.rest, Buffer.rest, List.length_append, List.length_drop]
  rw [valid_length h1, valid_length ok]
  omega

theorem RJ.Near.ofLoose {s0 s : RJ} (h : s0.Loose s) (hr : Reach s0.b s.b) (ok : s0.b.nBytes ≤ s0.b.buf.length) (i0 : s0.jidx ≤ s0.b.nBytes) : s0.Near s :=
  ⟨h, hr.stop ok i0 h.idx⟩

/-- A failed `write_long_*`. -/
theorem handleLong_near {k : Kind} {fuel : Nat} {s s' : RJ} {w w' : Writer} {er : Err} (h : s.Sync) (he : s.handleLong k fuel w = ((s', w'), .err er)) : s.Near s' :=
  .ofLoose (handleLong_errs k fuel s w h s' w' er he) (by have := handleLong_reach k fuel s w; rw [he] at this; exact this) h.ok h.idx

/-- A failed jiter call moves to a place in its slice, and puts one into its error; on an empty slice a `known_*` call counts the byte that
it takes for granted. -/
def Inside {α : Type} (f : JFn α) : Prop := ∀ d n e, f d = (n, .error e) → n ≤ d.length + 1 ∧ e.index ≤ d.length + 1

theorem rawString_inside : ∀ (k : Nat) (l : Bytes) (i : Nat) (e : JsonErr) (j : Nat), l.length ≤ k → rawString l i = .error (e, j) → j ≤ i + l.length := by
  intro k
  induction k with
  | zero =>
    intro l i e j hl h
    cases l with
    | nil => simp [rawString] at h; simp; omega
    | cons => simp at hl
  | succ k ih =>
    intro l i e j hl h
    unfold rawString at h
    cases l with
    | nil => simp at h; simp; omega
    | cons c cs =>
      simp only [List.length_cons] at hl ⊢
      simp only at h
      split at h
      · simp at h
      · split at h
        · cases cs with
          | nil => simp at h; simp; omega
          | cons x r =>
            simp only [List.length_cons] at hl ⊢
            simp only at h
            repeat' split at h
            all_goals first
              | (have := ih _ _ _ _ (by omega) h; omega)
              | (simp only [Except.error.injEq, Prod.mk.injEq] at h; omega)
        · split at h
          · simp only [Except.error.injEq, Prod.mk.injEq] at h; omega
          · have := ih _ _ _ _ (by omega) h; omega

theorem knownBytes_inside : Inside Jiter.knownBytes := by
  intro d n e h
  simp only [Jiter.knownBytes] at h
  split at h
  · rename_i e' i hr
    have := rawString_inside _ _ _ _ _ (Nat.le_refl _) hr
    simp only [jerr, Prod.mk.injEq, Except.error.injEq] at h
    obtain ⟨rfl, rfl⟩ := h
    simp only [List.length_drop] at this ⊢
    omega
  · simp at h

theorem drop_nonempty {d : Bytes} {w : Nat} {c : Byte} {t : Bytes} (h : d.drop w = c :: t) : w + 1 + t.length = d.length := by
  have := congrArg List.length h
  simp only [List.length_drop, List.length_cons] at this
  omega

theorem wsLen_drop (d : Bytes) (k : Nat) : wsLen (d.drop k) ≤ d.length - k := by
  have := wsLen_le (d.drop k)
  simpa using this

theorem objectKey_inside : Inside (objectKey Jiter.knownBytes) := by
  intro d n e h
  simp only [objectKey] at h
  split at h
  · rename_i m e' hk
    simp only [Prod.mk.injEq, Except.error.injEq] at h
    obtain ⟨rfl, rfl⟩ := h
    exact knownBytes_inside _ _ _ hk
  · rename_i m k hk
    have := wsLen_drop d m
    have hm := (knownBytes_prefix _ _ _ hk).2.1
    repeat' split at h
    all_goals simp only [jerr, Prod.mk.injEq, Except.error.injEq, reduceCtorEq, and_false] at h
    all_goals obtain ⟨rfl, rfl⟩ := h; simp only; omega

theorem keyAt_inside {d : Bytes} {w n : Nat} {e : JErr} (hw : w ≤ d.length) (h : keyAt Jiter.knownBytes d w = (n, .error e)) : n ≤ d.length + 1 ∧ e.index ≤ d.length + 1 := by
  unfold keyAt at h
  split at h
  · rename_i m e' hk
    have := objectKey_inside _ _ _ hk
    simp only [Prod.mk.injEq, Except.error.injEq] at h
    obtain ⟨rfl, rfl⟩ := h
    simp only [List.length_drop] at this ⊢
    omega
  · simp at h

theorem peek_inside : Inside Jiter.peek := by
  intro d n e h
  have := wsLen_le d
  simp only [Jiter.peek] at h
  split at h <;> simp only [jerr, Prod.mk.injEq, Except.error.injEq, reduceCtorEq, and_false] at h
  obtain ⟨rfl, rfl⟩ := h; simp only; omega

theorem knownArray_inside : Inside Jiter.knownArray := by
  intro d n e h
  have := wsLen_drop d 1
  simp only [Jiter.knownArray] at h
  repeat' split at h
  all_goals simp only [jerr, Prod.mk.injEq, Except.error.injEq, reduceCtorEq, and_false] at h
  obtain ⟨rfl, rfl⟩ := h; simp only; omega

theorem arrayStep_inside : Inside Jiter.arrayStep := by
  intro d n e h
  have := wsLen_le d
  simp only [Jiter.arrayStep] at h
  split at h
  · simp only [jerr, Prod.mk.injEq, Except.error.injEq] at h
    obtain ⟨rfl, rfl⟩ := h; simp only; omega
  · rename_i c t hc
    have h1 := drop_nonempty hc
    have h2 := wsLen_le t
    repeat' split at h
    all_goals simp only [jerr, Prod.mk.injEq, Except.error.injEq, reduceCtorEq, and_false] at h
    all_goals obtain ⟨rfl, rfl⟩ := h; simp only; omega

theorem knownObject_inside : Inside (Jiter.knownObject Jiter.knownBytes) := by
  intro d n e h
  have := wsLen_drop d 1
  simp only [Jiter.knownObject] at h
  split at h
  · simp only [jerr, Prod.mk.injEq, Except.error.injEq] at h
    obtain ⟨rfl, rfl⟩ := h; simp only; omega
  · rename_i c t hc
    have h1 := drop_nonempty hc
    split at h
    · exact keyAt_inside (by omega) h
    · split at h
      · simp at h
      · simp only [jerr, Prod.mk.injEq, Except.error.injEq] at h
        obtain ⟨rfl, rfl⟩ := h; simp only; omega

theorem nextObject_inside : Inside (Jiter.nextObject Jiter.knownBytes) := by
  intro d n e h
  simp only [Jiter.nextObject] at h
  rcases hp : Jiter.peek d with ⟨w, e' | c⟩
  · rw [hp] at h
    simp only [Prod.mk.injEq, Except.error.injEq] at h
    obtain ⟨rfl, rfl⟩ := h
    exact peek_inside _ _ _ hp
  · rw [hp] at h
    have hw : w ≤ d.length := by
      have := wsLen_le d
      simp only [Jiter.peek] at hp
      split at hp <;> simp only [jerr, Prod.mk.injEq, reduceCtorEq, and_false] at hp
      omega
    simp only at h
    split at h
    · split at h
      · rename_i m e' hk
        have := knownObject_inside _ _ _ hk
        simp only [Prod.mk.injEq, Except.error.injEq] at h
        obtain ⟨rfl, rfl⟩ := h
        simp only [List.length_drop] at this ⊢
        omega
      · simp at h
    · simp only [Prod.mk.injEq, Except.error.injEq] at h
      obtain ⟨rfl, rfl⟩ := h; simp only; omega

theorem nextKey_inside : Inside (Jiter.nextKey Jiter.knownBytes) := by
  intro d n e h
  have := wsLen_le d
  simp only [Jiter.nextKey] at h
  split at h
  · simp only [jerr, Prod.mk.injEq, Except.error.injEq] at h
    obtain ⟨rfl, rfl⟩ := h; simp only; omega
  · rename_i c t hc
    have h1 := drop_nonempty hc
    have h2 := wsLen_le t
    split at h
    · split at h
      · simp only [jerr, Prod.mk.injEq, Except.error.injEq] at h
        obtain ⟨rfl, rfl⟩ := h; simp only; omega
      · split at h
        · exact keyAt_inside (by omega) h
        · split at h
          all_goals simp only [jerr, Prod.mk.injEq, Except.error.injEq] at h
          all_goals obtain ⟨rfl, rfl⟩ := h; simp only; omega
    · split at h
      · simp at h
      · simp only [jerr, Prod.mk.injEq, Except.error.injEq] at h
        obtain ⟨rfl, rfl⟩ := h; simp only; omega

/-- The index of an error against the position of the parser afterwards: at most a buffer further. -/
structure Off (s0 s : RJ) (er : Err) : Prop where
  back : s0.currentIndex ≤ er.index
  ahead : er.index ≤ s.currentIndex + s.b.nBytes + 2
  stop : s.currentIndex ≤ s0.currentIndex + s0.rest.length + 2
  bytes : s.b.nBytes ≤ s0.b.buf.length

theorem Off.bound {s0 s : RJ} {er : Err} (h : Off s0 s er) : er.index ≤ s0.currentIndex + s0.rest.length + s0.b.buf.length + 4 := by
  have := h.ahead; have := h.stop; have := h.bytes; omega

theorem retryLoop_off {α : Type} {f : JFn α} {eager : Bool} (hi : Inside f) :
    ∀ (fuel : Nat) (s : RJ), s.b.nBytes ≤ s.b.buf.length → s.jlen = s.b.nBytes → s.jidx ≤ s.b.nBytes + 1 → s.b.reader.Clean →
      ∀ s' er, retryLoop f eager fuel s = (s', .err er) → s'.b.nShifted = s.b.nShifted ∧ s'.jidx ≤ s'.b.nBytes + 2 ∧
        s'.currentIndex ≤ er.index ∧ er.index ≤ s'.currentIndex + s'.b.nBytes + 2 := by
  intro fuel
  induction fuel with
  | zero => intro s _ _ _ _ s' er h; simp [retryLoop] at h
  | succ fuel ih =>
    intro s hok hl hj hcl s' er h
    have hjl : s.jdata.length = s.b.nBytes - s.jidx := by
      simp [jdata, hl]; omega
    have hrd : ∃ b n, s.b.readMore = (b, .ok n) ∧ (n = 0 → b = s.b) ∧ b.nBytes ≤ b.buf.length ∧ b.nShifted = s.b.nShifted ∧ b.reader.Clean := by
      rcases s.b.readMore_cases hok with ⟨_, e⟩ | ⟨_, e⟩ | ⟨q, r', hlt, hr, e⟩ | ⟨b', bs, e, h1⟩
      · exact ⟨_, _, e, fun _ => rfl, hok, rfl, hcl⟩
      · exact ⟨_, _, e, fun _ => rfl, hok, rfl, hcl⟩
      · rw [hr] at hcl; exact hcl.elim
      · have h2 := readMore_nShifted s.b hok
        rw [e] at h2
        refine ⟨_, _, e, fun h0 => ?_, h2.2, h2.1, ?_⟩
        · have := h1.1; omega
        · exact h1.2.2.2.2.2.2.2.1 hcl
    simp only [retryLoop, call] at h
    rcases hfv : f s.jdata with ⟨n, r⟩
    rw [hfv] at h
    obtain ⟨b, m, e1, h0, h2, h3, h4⟩ := hrd
    cases r with
    | error e =>
      obtain ⟨hn, hx⟩ := hi _ _ _ hfv
      simp only at h
      by_cases hcr : (!canRetry e.type) = true
      · rw [if_pos hcr] at h
        simp only [Prod.mk.injEq, Res.err.injEq] at h
        obtain ⟨rfl, rfl⟩ := h
        refine ⟨rfl, ?_, ?_, ?_⟩ <;> simp only [mkErr, Err.fromJiter, currentIndex] <;> omega
      · rw [if_neg hcr, e1] at h
        simp only at h
        by_cases hm : m = 0
        · rw [if_pos hm] at h
          simp only [Prod.mk.injEq, Res.err.injEq] at h
          obtain ⟨rfl, rfl⟩ := h
          rw [h0 hm]
          refine ⟨rfl, ?_, ?_, ?_⟩ <;> simp only [mkErr, Err.fromJiter, currentIndex] <;> omega
        · rw [if_neg hm] at h
          obtain ⟨k1, k2⟩ := ih _ h2 rfl (by simp [RJ.refresh]) h4 _ _ h
          exact ⟨k1.trans h3, k2⟩
    | ok w =>
      simp only at h
      by_cases hro : (({ s with jidx := s.jidx + n } : RJ).reallyOk eager) = true
      · rw [if_pos hro] at h; simp at h
      · rw [if_neg hro, e1] at h
        simp only at h
        by_cases hm : m = 0
        · rw [if_pos hm] at h; simp at h
        · rw [if_neg hm] at h
          obtain ⟨k1, k2⟩ := ih _ h2 rfl (by simp [RJ.refresh]) h4 _ _ h
          exact ⟨k1.trans h3, k2⟩

/-- The error of a call is at most a buffer off. -/
theorem loopUntilSuccess_off {α : Type} {f : JFn α} {tok : Option Byte} {eager : Bool} (hs : JSound f tok) (hi : Inside f) {s s' : RJ} {fuel : Nat} {er : Err}
    (h : s.Sync) (hl : 2 ≤ s.b.buf.length) (hf : enoughFuel s fuel) (hcl : s.b.reader.Clean)
    (hr : s.loopUntilSuccess fuel f tok eager = (s', .err er)) : Off s s' er := by
  have hreach : Reach s.b s'.b := by have := loopUntilSuccess_reach fuel s f tok eager; rw [hr] at this; exact this
  unfold enoughFuel at hf
  have hjl : s.jdata.length = s.b.nBytes - s.jidx := by
    have := h.ok
    simp [jdata, h.len]; omega
  have hidx := h.idx
  have hretry : ∀ j, j ≤ s.b.nBytes + 1 → (match ({ s with jidx := j } : RJ).skipSpacesFeeding fuel s.jidx tok with
      | (s2, .ok ()) => retryLoop f eager fuel s2
      | (s2, .err e) => (s2, .err e)
      | (s2, .panic) => (s2, .panic)
      | (s2, .diverge) => (s2, .diverge)) = (s', .err er) → Off s s' er := by
    intro j hj0 hj
    rcases skipSpacesFeeding_spec s { s with jidx := j } tok fuel h rfl rfl (by omega) (by intro _; omega) (by omega) with
      ⟨s2, e, hfed, hjl2, hpos⟩ | ⟨s2, kd, x, e, hcl'⟩
    · rw [e] at hj
      obtain ⟨k1, k2, k3, k4⟩ := retryLoop_off hi fuel s2 hfed.ok hjl2 (by
        rcases hpos with h0 | ⟨g1, g2, g3, g4⟩
        · omega
        · have h1 := congrArg List.length g4
          rw [valid_length hfed.ok, valid_length h.ok] at h1
          simp only at g1
          omega) (hfed.clean hcl) s' er hj
      obtain ⟨out, hv⟩ := hreach
      obtain ⟨h1, h2, h3, _, h5, _⟩ := hv.counts h.ok
      have h5 := h5.length_eq
      simp only [List.length_append] at h5
      rw [valid_length h1, valid_length h.ok] at h5
      have hidx2 := hfed.idx
      have hn : (norm tok s.rest).length ≤ s.rest.length := norm_length_le tok s.rest
      have hrl : s.currentIndex + s.rest.length = s.b.nShifted + s.b.nBytes + s.b.reader.pending.length := by
        simp only [RJ.currentIndex, RJ.rest, Buffer.rest, List.length_append, List.length_drop]
        rw [valid_length h.ok]; omega
      have hci : s'.currentIndex = s'.b.nShifted + s'.jidx := by simp only [RJ.currentIndex]; omega
      exact ⟨by omega, k4, by omega, by omega⟩
    · exact absurd hcl hcl'
  simp only [loopUntilSuccess, call] at hr
  rcases hfv : f s.jdata with ⟨n, r⟩
  rw [hfv] at hr
  cases r with
  | error e =>
    have := (hi _ _ _ hfv).1
    exact hretry _ (by omega) hr
  | ok w =>
    have := (hs.bound _ _ _ hfv).1
    simp only at hr
    by_cases hro : (({ s with jidx := s.jidx + n } : RJ).reallyOk eager) = true
    · rw [if_pos hro] at hr; simp at hr
    · rw [if_neg hro] at hr
      exact hretry _ (by omega) hr

end Verif.RJiter
