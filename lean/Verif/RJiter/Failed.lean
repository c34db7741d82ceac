import Verif.RJiter.Value

/-!
# What a failed call tells about the stream, and where it leaves the position
-/

namespace Verif.RJiter

open Buffer RJ Jiter

/-- `f` rejected the first `k` bytes of `r`, on the spot. An error that more input could repair is final only if there is
no more input, or no room for it. -/
structure Rejected {α : Type} (f : JFn α) (room : Nat) (r : Bytes) (k : Nat) (e : JErr) : Prop where
  le : k ≤ r.length
  err : f (r.take k) = (0, .error e)
  final : canRetry e.type = true → k = r.length ∨ k = room

/-- A failing call on no input at all does not move, either. -/
def StillNil {α : Type} (f : JFn α) : Prop := ∀ n e, f [] = (n, .error e) → n = 0

theorem Still.ws {α : Type} {f : JFn α} (h : Still f) : StillWs f := fun _ _ _ _ _ he => h _ _ _ he
theorem Still.onNil {α : Type} {f : JFn α} (h : Still f) : StillNil f := fun _ _ he => h _ _ _ he

theorem Next.stillNil {α : Type} {f : JFn α} {sel : Byte → Option (JFn α)} (h : Next f sel) : StillNil f := by
  intro n e he
  have hp : peek [] = (0, .error ⟨.json .eofWhileParsingValue, 0⟩) := rfl
  rw [h.ws _ _ _ hp] at he
  simp only [Prod.mk.injEq] at he; exact he.1.symm

theorem peek_stillNil : StillNil peek := by
  intro n e he
  have hp : peek [] = (0, .error ⟨.json .eofWhileParsingValue, 0⟩) := rfl
  rw [hp] at he
  simp only [Prod.mk.injEq] at he; exact he.1.symm

/-- Both together, for data that does not start with a space. -/
theorem StillWs.head {α : Type} {f : JFn α} (h : StillWs f) (h0 : StillNil f) {d : Bytes}
    (hd : ∀ c, d.head? = some c → isAsciiWs c = false) {n : Nat} {e : JErr} (he : f d = (n, .error e)) : n = 0 := by
  cases d with
  | nil => exact h0 n e he
  | cons c t => exact h c t n e (isWs_of_not_ascii (hd c rfl)) he

theorem norm_none_head {r : Bytes} (k : Nat) : ∀ c, ((norm none r).take k).head? = some c → isAsciiWs c = false := by
  obtain ⟨_, _, _, h3⟩ := norm_none_split r
  intro c hc
  cases hn : norm none r with
  | nil => rw [hn] at hc; simp at hc
  | cons x t =>
    rw [hn] at hc
    cases k with
    | zero => simp at hc
    | succ k => exact h3 c (by rw [hn]; simpa using hc)

theorem RJ.retryLoop_error {α : Type} {f : JFn α} (hst : StillWs f) (hst0 : StillNil f) (s0 : RJ) :
    ∀ (fuel : Nat) (s : RJ), Fed none s0 s.b → s.jlen = s.b.nBytes → s.jidx = 0 →
      ∀ s' er, retryLoop f false fuel s = (s', .err er) →
      s0.Moved s' (s0.rest.length - (norm none s0.rest).length) ∧
      ((∃ kd x, er = ⟨.io kd, x⟩) ∨
        ∃ k e, Rejected f s0.b.buf.length (norm none s0.rest) k e ∧
          er = ⟨.ofJ e.type, s0.currentIndex + (s0.rest.length - (norm none s0.rest).length) + e.index⟩ ∧
          s'.jidx = 0 ∧ s'.b.nBytes = k) := by
  intro fuel
  induction fuel with
  | zero => intro s _ _ _ s' er h; simp [retryLoop] at h
  | succ fuel ih =>
    intro s hfed hl h0 s' er h
    have hjd : s.jdata = (norm none s0.rest).take s.b.nBytes := by
      rw [← hfed.rest, ← valid_take_rest hfed.ok, jdata, hl, h0]; simp [Buffer.valid]
    have hrl := congrArg List.length hfed.rest
    rw [rest_length _ hfed.ok] at hrl
    have hle := norm_length_le none s0.rest
    have hidx := hfed.idx
    simp only [retryLoop, call] at h
    rcases hfv : f s.jdata with ⟨n, r⟩
    rw [hfv] at h
    cases r with
    | ok w =>
      simp only [reallyOk, Bool.not_false, Bool.true_or, if_true] at h
      simp at h
    | error e =>
      have hn : n = 0 := by
        rw [hjd] at hfv
        exact hst.head hst0 (norm_none_head _) hfv
      subst hn
      have hs0 : ({ s with jidx := s.jidx + 0 } : RJ) = s := by cases s; rfl
      rw [hs0] at h
      simp only at h
      have hmv : s0.Moved s (s0.rest.length - (norm none s0.rest).length) := by
        have := Moved.ofFed hfed hl (by rw [h0]; exact Nat.zero_le _) (.inr (by intro t ht; cases ht))
        simpa [h0] using this
      have hcur : s.currentIndex = s0.currentIndex + (s0.rest.length - (norm none s0.rest).length) := hmv.index
      have herr : s.mkErr s.jidx e =
          ⟨.ofJ e.type, s0.currentIndex + (s0.rest.length - (norm none s0.rest).length) + e.index⟩ := by
        simp only [mkErr, Err.fromJiter, h0, hcur]; congr 1; omega
      by_cases hcr : (!canRetry e.type) = true
      · rw [if_pos hcr] at h
        simp only [Prod.mk.injEq, Res.err.injEq] at h
        obtain ⟨rfl, rfl⟩ := h
        refine ⟨hmv, .inr ⟨s.b.nBytes, e, ⟨by omega, by rw [← hjd]; exact hfv, ?_⟩, herr, h0, rfl⟩⟩
        intro hc; rw [hc] at hcr; simp at hcr
      · rw [if_neg hcr] at h
        have hfr := hfed.readMore
        have hok := hfed.ok
        have hlen := hfed.len
        have hstay : ∀ b2, b2 = s.b → (({ s with b := b2 } : RJ), Res.err (({ s with b := b2 } : RJ).mkErr s.jidx e)) =
              (s', (Res.err er : Res α)) → (s.b.nBytes = (norm none s0.rest).length ∨ s.b.nBytes = s0.b.buf.length) →
            s0.Moved s' (s0.rest.length - (norm none s0.rest).length) ∧
            ((∃ kd x, er = ⟨.io kd, x⟩) ∨
              ∃ k e, Rejected f s0.b.buf.length (norm none s0.rest) k e ∧
                er = ⟨.ofJ e.type, s0.currentIndex + (s0.rest.length - (norm none s0.rest).length) + e.index⟩ ∧
                s'.jidx = 0 ∧ s'.b.nBytes = k) := by
          intro b2 hb2 hx hend
          subst hb2
          simp only [Prod.mk.injEq, Res.err.injEq] at hx
          obtain ⟨rfl, rfl⟩ := hx
          exact ⟨hmv, .inr ⟨s.b.nBytes, e, ⟨by omega, by rw [← hjd]; exact hfv, fun _ => hend⟩, herr, h0, rfl⟩⟩
        rcases s.b.readMore_cases hfed.ok with ⟨hno, e1⟩ | ⟨hno, e1⟩ | ⟨q, r', hlt, hr, e1⟩ |
          ⟨b', bs, e1, hb, hv, hnb, ho, hl', hp, hs', hcl, _⟩
        · rw [e1] at h
          simp only [if_true] at h
          exact hstay _ rfl h (.inr (by omega))
        · rw [e1] at h
          simp only [if_true] at h
          rw [hno] at hrl
          exact hstay _ rfl h (.inl (by simp [Reader.pending] at hrl; omega))
        · rw [e1] at h hfr
          simp only [Prod.mk.injEq, Res.err.injEq] at h
          obtain ⟨rfl, rfl⟩ := h
          refine ⟨?_, .inl ⟨q, _, rfl⟩⟩
          have := Moved.ofFed (s' := { s with b := { s.b with reader := r' } }) hfr hl (by simp [h0]) (.inr (by intro t ht; cases ht))
          simpa [h0] using this
        · rw [e1] at h hfr
          simp only [show bs.length ≠ 0 by omega, if_false] at h
          exact ih _ hfr rfl rfl s' er h

/-- With a byte that is not a space in the buffer, `skip_spaces_feeding` reads nothing. -/
theorem RJ.skipSpacesFeeding_buffered (s : RJ) (j fuel : Nat) (h : s.Sync) (hf : 2 ≤ fuel)
    (hb : ∃ c ∈ s.jdata, isAsciiWs c = false) :
    ∃ s2, ({ s with jidx := s.jidx + j } : RJ).skipSpacesFeeding fuel s.jidx none = (s2, .ok ()) := by
  obtain ⟨fuel, rfl⟩ : ∃ m, fuel = m + 2 := ⟨fuel - 2, by omega⟩
  obtain ⟨c, hc, hcw⟩ := hb
  have hsh := s.b.shift_spec h.ok (Nat.zero_le s.jidx)
  have hv0 : (if s.jidx > 0 then s.b.shift 0 s.jidx else s.b).valid = s.jdata := by
    rw [jdata_eq h]
    split
    · rw [hsh.1]; simp
    · rw [show s.jidx = 0 by omega]; rfl
  have hok0 : (if s.jidx > 0 then s.b.shift 0 s.jidx else s.b).nBytes ≤
      (if s.jidx > 0 then s.b.shift 0 s.jidx else s.b).buf.length := by
    split
    · exact hsh.2.2.2.2.1
    · exact h.ok
  simp only [skipSpacesFeeding]
  generalize hb0 : (if s.jidx > 0 then s.b.shift 0 s.jidx else s.b) = b0 at hv0 hok0 ⊢
  have hlen := valid_length hok0
  have hscan : b0.scan isAsciiWs 0 < b0.nBytes := by
    simp only [Buffer.scan, Nat.zero_add, List.drop_zero, ← hlen]
    rw [hv0]
    apply Classical.byContradiction
    intro hge
    have hle := List.takeWhile_prefix isAsciiWs (l := s.jdata)
    have heq := hle.eq_of_length (by have := hle.length_le; omega)
    have := List.all_takeWhile (p := isAsciiWs) (l := s.jdata)
    rw [heq, List.all_eq_true] at this
    rw [this c hc] at hcw; exact absurd hcw (by decide)
  have hcol : b0.collectWhile (fuel + 2) isAsciiWs 0 false = (b0, .ok (0, b0.scan isAsciiWs 0)) := by
    simp only [Buffer.collectWhile, Buffer.collectWhileLoop]
    rw [if_pos hscan]
  simp only [skipSpaces, skipSpacesLoop, hcol]
  split <;> split <;> exact ⟨_, rfl⟩

/-- A failed call without a transparent token, and without the end-of-number check. Unless the reader failed, the position is
now at the token, and the error has the offset that jiter gives it in what it saw. The token is at the start of the buffer. -/
theorem RJ.plain_error_at {α : Type} {f : JFn α} (hst : StillWs f) (hst0 : StillNil f)
    (s : RJ) (fuel : Nat) (h : s.Sync) (hl : 0 < s.b.buf.length) (hf : s.b.reader.size + 2 ≤ fuel)
    {s' : RJ} {er : Err} (herr : s.loopUntilSuccess fuel f none false = (s', .err er)) :
    (∃ kd x, er = ⟨.io kd, x⟩ ∧ ((∃ c ∈ s.jdata, isAsciiWs c = false) → ∃ ws r, s.rest = ws ++ r ∧
      (∀ c ∈ ws, isAsciiWs c = true) ∧ s.Moved s' ws.length)) ∨
    ∃ ws r k e, s.rest = ws ++ r ∧ (∀ c ∈ ws, isAsciiWs c = true) ∧ (∀ c, r.head? = some c → isAsciiWs c = false) ∧
      Rejected f s.b.buf.length r k e ∧ er = ⟨.ofJ e.type, s.currentIndex + ws.length + e.index⟩ ∧ s.Moved s' ws.length ∧
      s'.jidx = 0 ∧ s'.b.nBytes = k := by
  obtain ⟨ws, h1, h2, h3⟩ := norm_none_split s.rest
  have hlen := congrArg List.length h1
  rw [List.length_append] at hlen
  simp only [loopUntilSuccess, call] at herr
  rcases hfv : f s.jdata with ⟨n, r⟩
  rw [hfv] at herr
  cases r with
  | ok w =>
    simp only [reallyOk, Bool.not_false, Bool.true_or, if_true] at herr
    simp at herr
  | error e =>
    simp only at herr
    rcases skipSpacesFeeding_spec s { s with jidx := s.jidx + n } none fuel h rfl rfl hl (by simp) hf with
      ⟨s2, e2, hfed, hjl, hpos⟩ | ⟨s2, kd, x, e2, hcl⟩
    · rw [e2] at herr
      simp only at herr
      have h0 : s2.jidx = 0 := by
        rcases hpos with h0 | ⟨g1, g2, g3, g4⟩
        · exact h0
        · have hj : s.jdata = (norm none s.rest).take s.jdata.length := by
            rw [g3]; conv => rhs; rw [rest_eq h]
            simp
          rw [hj] at hfv
          have := hst.head hst0 (norm_none_head _) hfv
          simp only at g1; omega
      obtain ⟨hm, hc⟩ := retryLoop_error hst hst0 s fuel s2 hfed hjl h0 s' er herr
      have hw : s.rest.length - (norm none s.rest).length = ws.length := by omega
      rw [hw] at hc hm
      rcases hc with ⟨kd, x, hc⟩ | ⟨k, e', hr, he', hz⟩
      · exact .inl ⟨kd, x, hc, fun _ => ⟨ws, _, h1, h2, hm⟩⟩
      · right
        exact ⟨ws, norm none s.rest, k, e', h1, h2, h3, hr, he', hm, hz⟩
    · rw [e2] at herr
      simp only [Prod.mk.injEq, Res.err.injEq] at herr
      refine .inl ⟨kd, x, herr.2.symm, fun hb => ?_⟩
      obtain ⟨s3, e3⟩ := skipSpacesFeeding_buffered s n fuel h (by omega) hb
      rw [e3] at e2; simp at e2

@[inherit_doc RJ.plain_error_at]
theorem RJ.plain_error {α : Type} {f : JFn α} (hst : StillWs f) (hst0 : StillNil f)
    (s : RJ) (fuel : Nat) (h : s.Sync) (hl : 0 < s.b.buf.length) (hf : s.b.reader.size + 2 ≤ fuel)
    {s' : RJ} {er : Err} (herr : s.loopUntilSuccess fuel f none false = (s', .err er)) :
    (∃ kd x, er = ⟨.io kd, x⟩ ∧ ((∃ c ∈ s.jdata, isAsciiWs c = false) → ∃ ws r, s.rest = ws ++ r ∧
      (∀ c ∈ ws, isAsciiWs c = true) ∧ s.Moved s' ws.length)) ∨
    ∃ ws r k e, s.rest = ws ++ r ∧ (∀ c ∈ ws, isAsciiWs c = true) ∧ (∀ c, r.head? = some c → isAsciiWs c = false) ∧
      Rejected f s.b.buf.length r k e ∧ er = ⟨.ofJ e.type, s.currentIndex + ws.length + e.index⟩ ∧ s.Moved s' ws.length := by
  rcases plain_error_at hst hst0 s fuel h hl hf herr with h1 | ⟨ws, r, k, e, h1, h2, h3, h4, h5, h6, _⟩
  · exact .inl h1
  · exact .inr ⟨ws, r, k, e, h1, h2, h3, h4, h5, h6⟩

end Verif.RJiter
