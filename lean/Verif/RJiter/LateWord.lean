import Verif.RJiter.Late
import Verif.RJiter.Words

/-!
# Literals in front of a reader that fails where another one ends

When the parser is at the first byte of a literal, `known_bool` and `known_null` come to the same state with both readers: either they do not
get as far as the end, or they both fail there.
-/

namespace Verif.RJiter

open Buffer RJ Jiter

theorem readMore_stuck {k : Nat} {b : Buffer} (h : (b.late k).readMore ≠ (b.readMore.1.late k, b.readMore.2)) :
    ∃ i, (b.late k).readMore = (b.readMore.1, .err ⟨.io k, i⟩) := by
  by_cases hb : b.buf.length < b.nBytes
  · exfalso
    apply h
    unfold Buffer.readMore
    rw [if_pos hb, if_pos (by exact hb)]
  · by_cases h0 : b.buf.length - b.nBytes = 0
    · exfalso
      apply h
      unfold Buffer.readMore
      rw [if_neg hb, if_neg (by exact hb)]
      simp only [Buffer.late, Reader.read, h0, if_true]
    · cases hr : b.reader with
      | nil =>
        have he := b.readMore_end hr (by omega)
        rw [he]
        refine ⟨b.nBytes, ?_⟩
        unfold Buffer.readMore
        rw [if_neg (by exact hb)]
        simp only [Buffer.late, hr, Reader.read, h0, if_false, List.nil_append]
        rw [← hr]
      | cons e r =>
        exfalso
        apply h
        unfold Buffer.readMore
        rw [if_neg hb, if_neg (by exact hb)]
        simp only [Buffer.late, hr, Reader.read, h0, if_false, List.cons_append]
        cases e with
        | fail q => rfl
        | data c cs =>
          simp only
          rcases cs.drop (b.buf.length - b.nBytes - 1) with _ | ⟨d, ds⟩ <;> rfl

namespace RJ

/-- The same but for the failure to come; or both have failed, and are in the same state. -/
def Meet {α : Type} (k : Nat) (x y : RJ × Res α) : Prop :=
  y = (x.1.late k, x.2) ∨ (y.1 = x.1 ∧ (∃ e, x.2 = .err e) ∧ ∃ e, y.2 = .err e)

theorem retryLoop_meet {α : Type} (k : Nat) (f : JFn α) : ∀ (fuel : Nat) (s : RJ),
    Meet k (retryLoop f false fuel s) (retryLoop f false fuel (s.late k)) := by
  intro fuel
  induction fuel with
  | zero => intro s; exact .inl rfl
  | succ fuel ih =>
    intro s
    simp only [retryLoop, call]
    rw [show (s.late k).jdata = s.jdata from rfl, show (s.late k).jidx = s.jidx from rfl]
    rcases f s.jdata with ⟨n, e | v⟩
    · simp only
      split
      · exact .inl rfl
      · rw [show (s.late k).b = s.b.late k from rfl]
        rcases readMore_pair k s.b with h | ⟨-, -, h2⟩
        · rw [h]
          rcases s.b.readMore with ⟨b2, m | er | _ | _⟩
          · simp only
            split
            · exact .inl rfl
            · exact ih _
          all_goals exact .inl rfl
        · by_cases h : (s.b.late k).readMore = (s.b.readMore.1.late k, s.b.readMore.2)
          · rw [h, h2]
            simp only [if_true]
            exact .inl rfl
          · obtain ⟨i, h⟩ := readMore_stuck h
            rw [h, h2]
            simp only [if_true]
            exact .inr ⟨rfl, ⟨_, rfl⟩, _, rfl⟩
    · simp only [reallyOk, Bool.not_false, Bool.true_or, if_true]
      exact .inl rfl

/-- In front of a byte that is not white space nothing is skipped, and nothing is read. -/
theorem skipSpacesFeeding_here {s : RJ} (hs : s.Sync) {c : Byte} {t : Bytes} (hj : s.jdata = c :: t) (hc : isAsciiWs c = false)
    {fuel : Nat} (hf : 0 < fuel) (n : Nat) :
    ({ s with jidx := n } : RJ).skipSpacesFeeding fuel s.jidx none =
      ((if isChanged s.b (if s.jidx > 0 then s.b.shift 0 s.jidx else s.b) then
        (({ s with jidx := n, b := (if s.jidx > 0 then s.b.shift 0 s.jidx else s.b) } : RJ).refresh)
      else { s with jidx := n, b := (if s.jidx > 0 then s.b.shift 0 s.jidx else s.b) }), .ok ()) := by
  have hv : (if s.jidx > 0 then s.b.shift 0 s.jidx else s.b).valid = c :: t ∧
      (if s.jidx > 0 then s.b.shift 0 s.jidx else s.b).nBytes ≤ (if s.jidx > 0 then s.b.shift 0 s.jidx else s.b).buf.length := by
    have hd : s.b.valid.drop s.jidx = c :: t := by
      rw [← hj, jdata, hs.len]; rfl
    split
    · have := s.b.shift_spec hs.ok (Nat.zero_le s.jidx)
      refine ⟨?_, this.2.2.2.2.1⟩
      rw [this.1, hd]; rfl
    · rename_i h0
      have : s.jidx = 0 := by omega
      rw [this] at hd
      exact ⟨hd, hs.ok⟩
  simp only [skipSpacesFeeding]
  generalize (if s.jidx > 0 then s.b.shift 0 s.jidx else s.b) = b at hv ⊢
  have hn : 0 < b.nBytes := by
    have := congrArg List.length hv.1
    rw [valid_length hv.2] at this
    simp at this
    omega
  have hsk : b.skipSpaces fuel 0 = (b, .ok ()) := by
    obtain ⟨g, rfl⟩ : ∃ g, fuel = g + 1 := ⟨fuel - 1, by omega⟩
    have hsc : b.scan isAsciiWs 0 = 0 := by simp [Buffer.scan, hv.1, hc]
    simp only [skipSpaces, skipSpacesLoop, collectWhile, collectWhileLoop, hsc, hn, if_true]
    rfl
  simp only [hsk]
  split <;> rfl

/-- A call in front of a byte that is not white space, with a function that does not look behind the value: both readers lead to the same. -/
theorem loopUntilSuccess_meet {α : Type} (k : Nat) (f : JFn α) {s : RJ} (hs : s.Sync) {c : Byte} {t : Bytes} (hj : s.jdata = c :: t)
    (hc : isAsciiWs c = false) {fuel : Nat} (hf : 0 < fuel) :
    Meet k (s.loopUntilSuccess fuel f none false) ((s.late k).loopUntilSuccess fuel f none false) := by
  have hl : (s.late k).Sync := ⟨hs.ok, hs.len, hs.idx⟩
  simp only [loopUntilSuccess, call]
  rw [show (s.late k).jdata = s.jdata from rfl, show (s.late k).jidx = s.jidx from rfl]
  rcases f s.jdata with ⟨n, e | v⟩
  · simp only
    have h1 := skipSpacesFeeding_here hs hj hc hf (s.jidx + n)
    have h2 := skipSpacesFeeding_here (s := s.late k) hl hj hc hf (s.jidx + n)
    rw [show (s.late k).jidx = s.jidx from rfl] at h2
    rw [h1, h2]
    have h0 : (if s.jidx > 0 then (s.late k).b.shift 0 s.jidx else (s.late k).b) = (if s.jidx > 0 then s.b.shift 0 s.jidx else s.b).late k := by
      split
      · exact shift_late _ _ _ _
      · rfl
    rw [h0, show isChanged (s.late k).b ((if s.jidx > 0 then s.b.shift 0 s.jidx else s.b).late k) =
      isChanged s.b (if s.jidx > 0 then s.b.shift 0 s.jidx else s.b) from rfl]
    simp only
    by_cases hch : isChanged s.b (if s.jidx > 0 then s.b.shift 0 s.jidx else s.b) = true
    · simp only [hch, if_true]
      exact retryLoop_meet k f fuel _
    · simp only [hch, if_false, Bool.false_eq_true]
      exact retryLoop_meet k f fuel _
  · simp only [reallyOk, Bool.not_false, Bool.true_or, if_true]
    exact .inl rfl

/-- Also a failed call leaves the parser usable. -/
theorem loopUntilSuccess_here {α : Type} {f : JFn α} (hf : JSound f none) (hw : Within f) {s s' : RJ} {er : Err} (hs : s.Sync)
    {c : Byte} {t : Bytes} (hj : s.jdata = c :: t) (hc : isAsciiWs c = false) {fuel : Nat} (hl : 2 ≤ s.b.buf.length) (he : enoughFuel s fuel)
    (h : s.loopUntilSuccess fuel f none false = (s', .err er)) : ∃ n, s.Moved s' n := by
  unfold enoughFuel at he
  simp only [loopUntilSuccess, call] at h
  have hidx := hs.idx
  have hlen : s.jdata.length = s.b.nBytes - s.jidx := by
    have := hs.ok
    simp [jdata, hs.len]; omega
  rcases hfv : f s.jdata with ⟨n, e | v⟩
  · rw [hfv] at h
    simp only at h
    have hn := hw _ _ _ hfv
    have h1 := skipSpacesFeeding_here hs hj hc (fuel := fuel) (by omega) (s.jidx + n)
    rcases skipSpacesFeeding_spec s { s with jidx := s.jidx + n } none fuel hs rfl rfl (by omega) (by intro _; omega) (by omega) with
      ⟨s2, e, hfed, hjl2, hpos⟩ | ⟨s2, kd, x, e, hcl⟩
    · rw [e] at h
      refine retryLoop_errs hf hw s fuel s2 hfed hjl2 ?_ s' er h
      rcases hpos with h0 | ⟨g1, g2, g3, g4⟩
      · omega
      · have h1 := congrArg List.length g4
        rw [valid_length hfed.ok, valid_length hs.ok] at h1
        simp only at g1
        omega
    · rw [e] at h1
      simp at h1
  · rw [hfv] at h
    simp [reallyOk] at h

theorem still_within {α : Type} {f : JFn α} (h : Still f) : Within f := by
  intro d n e he
  have := h _ _ _ he
  omega

end RJ

end Verif.RJiter
