import Verif.RJiter.Steps

/-!
# `loop_until_success` over an abstract jiter function
-/

namespace Verif.RJiter

open Buffer

namespace RJ

/-- The normalised stream is a suffix of the stream, except that the token may have been moved. -/
theorem norm_drop (tok : Option Byte) (r : Bytes) (j : Nat)
    (hj : ∀ t, tok = some t → (norm tok r).head? = some t → 1 ≤ j) :
    (norm tok r).drop j = r.drop (r.length - (norm tok r).length + j) := by
  have hdw : ∀ l : Bytes, l.dropWhile isAsciiWs = l.drop (l.length - (l.dropWhile isAsciiWs).length) := by
    intro l
    have h1 := dropWhile_eq_drop isAsciiWs l
    have h2 := congrArg List.length h1
    have h3 := takeWhile_len_le isAsciiWs l
    rw [List.length_drop] at h2
    rw [h2, show l.length - (l.length - (l.takeWhile isAsciiWs).length) = (l.takeWhile isAsciiWs).length by omega,
      ← h1]
  have h1 := dropWhile_len_le isAsciiWs r
  revert hj
  unfold norm
  split
  · rename_i t c r2 heq
    by_cases hct : c = t
    · rw [if_pos hct]
      intro hj
      have hj := hj t rfl (by simp [hct])
      have h2 := dropWhile_len_le isAsciiWs r2
      obtain ⟨i, rfl⟩ : ∃ i, j = i + 1 := ⟨j - 1, by omega⟩
      rw [List.drop_succ_cons, hdw r2, List.drop_drop]
      have h3 := hdw r
      rw [heq] at h3
      have h4 : r2 = r.drop (r.length - (c :: r2).length + 1) := by
        have := congrArg (List.drop 1) h3
        rw [List.drop_drop] at this
        simpa using this
      rw [heq] at h1
      simp only [List.length_cons] at h1
      generalize hq : (r2.dropWhile isAsciiWs).length = q at *
      rw [show List.drop (r2.length - q + i) r2 = _ from congrArg _ h4, List.drop_drop]
      congr 1
      simp only [List.length_cons, List.length_drop]
      omega
    · rw [if_neg hct]
      intro _
      rw [← heq]
      conv => lhs; rw [hdw r]
      rw [List.drop_drop]
  · intro _
    conv => lhs; rw [hdw r]
    rw [List.drop_drop]

/-- The position in a fed buffer as a position of the stream. -/
theorem Moved.ofFed {tok : Option Byte} {s s' : RJ} (hf : Fed tok s s'.b) (hl : s'.jlen = s'.b.nBytes)
    (hj : s'.jidx ≤ s'.b.nBytes)
    (ht : norm tok s.rest = s.rest ∨ ∀ t, tok = some t → (norm tok s.rest).head? = some t → 1 ≤ s'.jidx) :
    s.Moved s' (s.rest.length - (norm tok s.rest).length + s'.jidx) := by
  have hle := norm_length_le tok s.rest
  have hrl := congrArg List.length hf.rest
  rw [rest_length _ hf.ok] at hrl
  have hidx := hf.idx
  refine ⟨⟨hf.ok, hl, hj⟩, by omega, ?_, ?_, hf.len, hf.size, hf.clean⟩
  · have e1 : s'.rest = (norm tok s.rest).drop s'.jidx := by
      rw [← hf.rest, RJ.rest, Buffer.rest, Buffer.rest,
        List.drop_append_of_le_length (by simp [valid_length hf.ok]; exact hj)]
      simp
    rw [e1]
    rcases ht with ht | ht
    · rw [ht, Nat.sub_self, Nat.zero_add]
    · exact norm_drop tok s.rest s'.jidx ht
  · simp only [currentIndex] at hidx ⊢; omega

theorem Fed.readMore {tok : Option Byte} {s : RJ} {b : Buffer} (h : Fed tok s b) : Fed tok s b.readMore.1 := by
  have hf : Frame b b.readMore.1 0 0 := .readMore h.ok (Nat.zero_le _)
  have hi := hf.idx
  have hi2 := h.idx
  refine ⟨hf.ok, hf.len.trans h.len, ?_, by omega, Nat.le_trans hf.size h.size, fun hc => hf.clean (h.clean hc), ?_⟩
  · rw [← h.rest]; exact hf.rest
  · rcases b.readMore_cases h.ok with ⟨_, e⟩ | ⟨_, e⟩ | ⟨q, r', hlt, hr, e⟩ |
          ⟨b', bs, e, hb, hv, hn, ho, hl', hp, hs, hcl, _⟩
    · rw [e]; exact h.eof
    · rw [e]; exact h.eof
    · rw [e]
      intro h0
      have := h.eof h0
      rw [hr] at this; simp at this
    · rw [e]; simp only; intro h0; omega

/-- What is needed of a jiter function for a success to be harmless: it consumes at most what is there, it
does not succeed on nothing, and if its input starts with the transparent token, it consumes it. -/
structure JSound {α : Type} (f : JFn α) (tok : Option Byte) : Prop where
  bound : ∀ d n v, f d = (n, .ok v) → n ≤ d.length ∧ d ≠ []
  token : ∀ t, tok = some t → ∀ d n v, f (t :: d) = (n, .ok v) → 1 ≤ n

/-- The retry loop returns, and a success is a move forward. -/
theorem retryLoop_sound {α : Type} {f : JFn α} {tok : Option Byte} {eager : Bool} (hs : JSound f tok) (s0 : RJ) :
    ∀ (fuel : Nat) (s : RJ), Fed tok s0 s.b → s.jlen = s.b.nBytes →
      (s.jidx = 0 ∨ norm tok s0.rest = s0.rest) → s.b.reader.size < fuel →
      ∃ s' r, retryLoop f eager fuel s = (s', r) ∧
        ((∃ v n, r = .ok v ∧ s0.Moved s' n) ∨ (∃ e, r = .err e ∧ (∀ kd, e.type = .io kd → ¬ s0.b.reader.Clean))) := by
  intro fuel
  induction fuel with
  | zero => intro s _ _ _ h; omega
  | succ fuel ih =>
    intro s hfed hl hpos hfuel
    -- an accepted result
    have hacc : ∀ n v, f s.jdata = (n, .ok v) →
        ∃ m, s0.Moved { s with jidx := s.jidx + n } m := by
      intro n v hfv
      have hb := hs.bound _ _ _ hfv
      have hjl : s.jdata.length = s.b.nBytes - s.jidx := by
        have := hfed.ok
        simp [jdata, hl]; omega
      have hlt : s.jidx < s.b.nBytes := by
        have : 0 < s.jdata.length := List.length_pos_iff.mpr hb.2
        omega
      refine ⟨_, Moved.ofFed (tok := tok) (s' := { s with jidx := s.jidx + n }) hfed hl (by simp only; omega) ?_⟩
      rcases hpos with h0 | h0
      · right
        intro t htok hhead
        have hjd : s.jdata = s.b.valid := by rw [jdata, hl, h0]; simp [Buffer.valid]
        have hhd : s.b.valid.head? = some t := by
          rw [← hfed.rest, Buffer.rest, List.drop_zero] at hhead
          cases hv : s.b.valid with
          | nil => rw [hjd] at hb; exact absurd hv hb.2
          | cons c v => rw [hv] at hhead; simpa using hhead
        obtain ⟨d, hd⟩ : ∃ d, s.jdata = t :: d := by
          rw [hjd]
          cases hv : s.b.valid with
          | nil => rw [hv] at hhd; simp at hhd
          | cons c v => rw [hv] at hhd; simp at hhd; exact ⟨v, by rw [hhd]⟩
        rw [hd] at hfv
        have := hs.token t htok d n v hfv
        simp only; omega
      · exact .inl h0
    -- after a read
    have hread : ∀ (j : Nat), ∃ b2 r2, s.b.readMore = (b2, r2) ∧
        ((r2 = .ok 0 ∧ b2 = s.b) ∨
         (∃ n, r2 = .ok n ∧ n ≠ 0 ∧ Fed tok s0 (({ s with b := b2, jidx := j } : RJ).refresh).b ∧ b2.reader.size < s.b.reader.size) ∨
         (∃ kd x, r2 = .err ⟨.io kd, x⟩ ∧ ¬ s0.b.reader.Clean)) := by
      intro j
      have hfr := hfed.readMore
      rcases s.b.readMore_cases hfed.ok with ⟨_, e⟩ | ⟨_, e⟩ | ⟨q, r', hlt, hr, e⟩ |
          ⟨b', bs, e, hb, hv, hn, ho, hl', hp, hs', hcl, _⟩
      · exact ⟨_, _, e, .inl ⟨rfl, rfl⟩⟩
      · exact ⟨_, _, e, .inl ⟨rfl, rfl⟩⟩
      · refine ⟨_, _, e, .inr (.inr ⟨_, _, rfl, ?_⟩)⟩
        intro hc
        have := hfed.clean hc
        rw [hr] at this; exact this
      · rw [e] at hfr
        exact ⟨_, _, e, .inr (.inl ⟨_, rfl, by omega, hfr, by omega⟩)⟩
    have hnojson : ∀ (t : JErrType) kd, ErrType.ofJ t ≠ .io kd := by
      intro t kd; cases t <;> simp [ErrType.ofJ]
    simp only [retryLoop, call]
    rcases hfv : f s.jdata with ⟨n, r⟩
    cases r with
    | error e =>
      simp only
      by_cases hcr : (!canRetry e.type) = true
      · rw [if_pos hcr]
        exact ⟨_, _, rfl, .inr ⟨_, rfl, fun kd hk => absurd hk (hnojson _ kd)⟩⟩
      · rw [if_neg hcr]
        obtain ⟨b2, r2, e2, hcase⟩ := hread (s.jidx + n)
        rw [e2]
        rcases hcase with ⟨rfl, rfl⟩ | ⟨n2, rfl, hn2, hfed2, hsz⟩ | ⟨kd, x, rfl, hcl⟩
        · simp only [if_true]
          exact ⟨_, _, rfl, .inr ⟨_, rfl, fun kd hk => absurd hk (hnojson _ kd)⟩⟩
        · simp only
          rw [if_neg hn2]
          exact ih _ hfed2 rfl (.inl rfl) (by show b2.reader.size < fuel; omega)
        · exact ⟨_, _, rfl, .inr ⟨_, rfl, fun _ _ => hcl⟩⟩
    | ok v =>
      simp only
      obtain ⟨m, hm⟩ := hacc n v hfv
      by_cases hro : (({ s with jidx := s.jidx + n } : RJ).reallyOk eager) = true
      · rw [if_pos hro]
        exact ⟨_, _, rfl, .inl ⟨v, m, rfl, hm⟩⟩
      · rw [if_neg hro]
        obtain ⟨b2, r2, e2, hcase⟩ := hread (s.jidx + n)
        rw [e2]
        rcases hcase with ⟨rfl, rfl⟩ | ⟨n2, rfl, hn2, hfed2, hsz⟩ | ⟨kd, x, rfl, hcl⟩
        · simp only [if_true]
          exact ⟨_, _, rfl, .inl ⟨v, m, rfl, hm⟩⟩
        · simp only
          rw [if_neg hn2]
          exact ih _ hfed2 rfl (.inl rfl) (by show b2.reader.size < fuel; omega)
        · exact ⟨_, _, rfl, .inr ⟨_, rfl, fun _ _ => hcl⟩⟩

/-- `loop_until_success` always returns, without a panic; if it returns `Ok`, the stream has moved forward. -/
theorem loopUntilSuccess_sound {α : Type} {f : JFn α} {tok : Option Byte} {eager : Bool} (hs : JSound f tok)
    (s : RJ) (fuel : Nat) (h : s.Sync) (hl : 0 < s.b.buf.length) (hl2 : tok ≠ none → 1 < s.b.buf.length)
    (hf : s.b.reader.size + 2 ≤ fuel) :
    ∃ s' r, s.loopUntilSuccess fuel f tok eager = (s', r) ∧
      ((∃ v n, r = .ok v ∧ s.Moved s' n) ∨ (∃ e, r = .err e ∧ (∀ kd, e.type = .io kd → ¬ s.b.reader.Clean))) := by
  have hretry : ∀ j, ∃ s' r, (match ({ s with jidx := j } : RJ).skipSpacesFeeding fuel s.jidx tok with
      | (s2, .ok ()) => retryLoop f eager fuel s2
      | (s2, .err e) => (s2, .err e)
      | (s2, .panic) => (s2, .panic)
      | (s2, .diverge) => (s2, .diverge)) = (s', r) ∧
      ((∃ v n, r = .ok v ∧ s.Moved s' n) ∨ (∃ e, r = .err e ∧ (∀ kd, e.type = .io kd → ¬ s.b.reader.Clean))) := by
    intro j
    rcases skipSpacesFeeding_spec s { s with jidx := j } tok fuel h rfl rfl hl hl2 hf with
      ⟨s2, e, hfed, hjl, hpos⟩ | ⟨s2, kd, x, e, hcl⟩
    · rw [e]
      simp only
      apply retryLoop_sound hs s fuel s2 hfed hjl
      · rcases hpos with h0 | h0
        · exact .inl h0
        · exact .inr h0.2.2.1
      · have := hfed.size; omega
    · rw [e]
      exact ⟨_, _, rfl, .inr ⟨_, rfl, fun _ _ => hcl⟩⟩
  simp only [loopUntilSuccess, call]
  rcases hfv : f s.jdata with ⟨n, r⟩
  cases r with
  | error e => exact hretry _
  | ok v =>
    simp only
    by_cases hro : (({ s with jidx := s.jidx + n } : RJ).reallyOk eager) = true
    · rw [if_pos hro]
      have hb := (hs.bound _ _ _ hfv).1
      have hjl : s.jdata.length = s.b.nBytes - s.jidx := by
        rw [jdata_eq h]; simp [valid_length h.ok]
      have hi := h.idx
      refine ⟨_, _, rfl, .inl ⟨v, n, rfl, ⟨h.ok, h.len, by simp only; omega⟩, ?_, ?_, ?_, rfl, Nat.le_refl _, id⟩⟩
      · rw [rest_eq h, List.length_append]; omega
      · show s.b.rest (s.jidx + n) = (s.b.rest s.jidx).drop n
        rw [Buffer.rest, Buffer.rest, List.drop_append_of_le_length (by simp [valid_length h.ok]; omega),
          List.drop_drop]
      · simp only [currentIndex]; omega
    · rw [if_neg hro]
      exact hretry _

/-! ### Independence of chunking -/

/-- A result that makes the retry loop read more: an error that more input may cure, or (for a function that
may stop too early) a success that touches the end of the `k` bytes it was given. -/
def Retry {α : Type} (eager : Bool) (k : Nat) (x : Nat × Except JErr α) : Prop :=
  match x with
  | (_, .error e) => canRetry e.type = true
  | (n, .ok _) => eager = true ∧ k ≤ n

/-- `f` succeeds on the stream `r` with `(n, v)` having looked at `need` bytes, and asks for more on every
shorter prefix. -/
structure Good {α : Type} (f : JFn α) (eager : Bool) (r : Bytes) (n : Nat) (v : α) (need : Nat) : Prop where
  fits : need ≤ r.length
  moved : n ≤ need
  margin : eager = true → n < need
  enough : ∀ k, need ≤ k → k ≤ r.length → f (r.take k) = (n, .ok v)
  short : ∀ k, k < need → Retry eager k (f (r.take k))

theorem valid_take_rest {b : Buffer} (h : b.nBytes ≤ b.buf.length) : b.valid = (b.rest 0).take b.nBytes := by
  rw [Buffer.rest, List.drop_zero, List.take_append_of_le_length (by rw [valid_length h]; omega),
    List.take_of_length_le (by rw [valid_length h]; omega)]

theorem retryLoop_complete {α : Type} {f : JFn α} {tok : Option Byte} {eager : Bool} {s0 : RJ} {n need : Nat}
    {v : α} (hg : Good f eager (norm tok s0.rest) n v need) (hc : s0.b.reader.Clean)
    (hneed : need ≤ s0.b.buf.length) :
    ∀ (fuel : Nat) (s : RJ), Fed tok s0 s.b → s.jlen = s.b.nBytes →
      (s.jidx = 0 ∨ (s.b.nBytes < need ∧ Retry eager (s.b.nBytes - s.jidx) (f s.jdata))) →
      s.b.reader.size < fuel →
      ∃ s', retryLoop f eager fuel s = (s', .ok v) ∧ Fed tok s0 s'.b ∧ s'.jlen = s'.b.nBytes ∧
        s'.jidx = n ∧ n ≤ s'.b.nBytes := by
  intro fuel
  induction fuel with
  | zero => intro s _ _ _ h; omega
  | succ fuel ih =>
    intro s hfed hl hpos hfuel
    have hlen := hfed.len
    by_cases hk : s.b.nBytes < need
    · -- not enough yet: ask for more
      have hR : Retry eager (s.b.nBytes - s.jidx) (f s.jdata) := by
        rcases hpos with h0 | h0
        · have hjd : s.jdata = (norm tok s0.rest).take s.b.nBytes := by
            rw [← hfed.rest, ← valid_take_rest hfed.ok, jdata, hl, h0]; simp [Buffer.valid]
          rw [hjd, h0]
          exact hg.short _ hk
        · exact h0.2
      -- the read delivers something
      obtain ⟨b', bs, e, hb, hfed2, hsz⟩ : ∃ b' m, s.b.readMore = (b', .ok m) ∧ 0 < m ∧ Fed tok s0 b' ∧
          b'.reader.size < s.b.reader.size := by
        have hfr := hfed.readMore
        rcases s.b.readMore_cases hfed.ok with ⟨hno, _⟩ | ⟨hno, _⟩ | ⟨q, r', hlt, hr, e⟩ |
            ⟨b', bs, e, hb, hv, hn, ho, hl', hp, hs', hcl, _⟩
        · omega
        · have h1 := congrArg List.length hfed.rest
          rw [rest_length _ hfed.ok, hno] at h1
          have h2 := hg.fits
          simp [Reader.pending] at h1
          omega
        · have := hfed.clean hc
          rw [hr] at this; exact this.elim
        · rw [e] at hfr
          exact ⟨_, _, e, hb, hfr, by omega⟩
      have hnext := ih ({ s with b := b', jidx := s.jidx + (f s.jdata).1 } : RJ).refresh hfed2 rfl (.inl rfl)
        (by show b'.reader.size < fuel; omega)
      simp only [retryLoop, call]
      rcases hfv : f s.jdata with ⟨m, r⟩
      rw [hfv] at hR hnext
      cases r with
      | error er =>
        simp only [Retry] at hR
        simp only [hR, Bool.not_true, Bool.false_eq_true, if_false, e]
        rw [if_neg (by omega)]
        exact hnext
      | ok w =>
        simp only [Retry] at hR
        have hro : (({ s with jidx := s.jidx + m } : RJ).reallyOk eager) = false := by
          simp only [reallyOk, hR.1]; simp; omega
        simp only [hro, Bool.false_eq_true, if_false, e]
        rw [if_neg (by omega)]
        exact hnext
    · -- enough
      have h0 : s.jidx = 0 := by
        rcases hpos with h0 | h0
        · exact h0
        · omega
      have hnl : s.b.nBytes ≤ (norm tok s0.rest).length := by
        rw [← hfed.rest, rest_length _ hfed.ok]; omega
      have hjd : s.jdata = (norm tok s0.rest).take s.b.nBytes := by
        rw [← hfed.rest, ← valid_take_rest hfed.ok, jdata, hl, h0]; simp [Buffer.valid]
      have hfv := hg.enough s.b.nBytes (by omega) hnl
      rw [← hjd] at hfv
      simp only [retryLoop, call, hfv]
      have hro : (({ s with jidx := s.jidx + n } : RJ).reallyOk eager) = true := by
        simp only [reallyOk]
        cases he : eager with
        | false => rfl
        | true => have := hg.margin he; simp; omega
      rw [if_pos hro]
      have := hg.moved
      exact ⟨_, rfl, hfed, hl, by simp [h0], by simp only; omega⟩

/-- If the call succeeds on the complete rest of the document, and does so as well after the spaces are
dropped, it succeeds on the stream, with the same value and the same position, whatever the chunking. -/
theorem loopUntilSuccess_complete {α : Type} {f : JFn α} {tok : Option Byte} {eager : Bool} {n n0 need need0 : Nat}
    {v : α} (s : RJ) (fuel : Nat) (h : s.Sync) (hc : s.b.reader.Clean)
    (hg : Good f eager s.rest n v need) (hg0 : Good f eager (norm tok s.rest) n0 v need0)
    (hn : n = s.rest.length - (norm tok s.rest).length + n0)
    (hneed : need = s.rest.length - (norm tok s.rest).length + need0)
    (htok : ∀ t, tok = some t → (norm tok s.rest).head? = some t → 1 ≤ n0)
    (hl : 0 < s.b.buf.length) (hl2 : tok ≠ none → 1 < s.b.buf.length)
    (hbuf : need0 ≤ s.b.buf.length)
    (hre : s.jidx = 0 → norm tok s.rest = s.rest → s.b.nBytes < need →
      Retry eager (s.b.nBytes - (f s.jdata).1) (f (s.jdata.drop (f s.jdata).1)))
    (hf : s.b.reader.size + 2 ≤ fuel) :
    ∃ s', s.loopUntilSuccess fuel f tok eager = (s', .ok v) ∧ s.Moved s' n := by
  have hvl := valid_length h.ok
  have hidx := h.idx
  have hjd : s.jdata = s.rest.take (s.b.nBytes - s.jidx) := by
    rw [rest_eq h, jdata_eq h, List.take_append_of_le_length (by simp [hvl]),
      List.take_of_length_le (by simp [hvl])]
  have hjlen : s.b.nBytes - s.jidx ≤ s.rest.length := by
    rw [rest_eq h, List.length_append, jdata_eq h, List.length_drop, hvl]; omega
  by_cases hk : need ≤ s.b.nBytes - s.jidx
  · -- the first attempt succeeds
    have hfv := hg.enough _ hk hjlen
    rw [← hjd] at hfv
    have hro : (({ s with jidx := s.jidx + n } : RJ).reallyOk eager) = true := by
      simp only [reallyOk]
      cases he : eager with
      | false => rfl
      | true => have := hg.margin he; simp; omega
    simp only [loopUntilSuccess, call, hfv]
    rw [if_pos hro]
    have hm := hg.moved
    refine ⟨_, rfl, ⟨h.ok, h.len, by simp only; omega⟩, by omega, ?_, ?_, rfl, Nat.le_refl _, id⟩
    · show s.b.rest (s.jidx + n) = (s.b.rest s.jidx).drop n
      rw [Buffer.rest, Buffer.rest, List.drop_append_of_le_length (by simp [hvl]; omega), List.drop_drop]
    · simp only [currentIndex]; omega
  · -- the first attempt fails, or is not trusted
    have hR := hg.short (s.b.nBytes - s.jidx) (by omega)
    rw [← hjd] at hR
    have hretry : ∃ s', (match ({ s with jidx := s.jidx + (f s.jdata).1 } : RJ).skipSpacesFeeding fuel s.jidx tok with
        | (s2, .ok ()) => retryLoop f eager fuel s2
        | (s2, .err e) => (s2, .err e)
        | (s2, .panic) => (s2, .panic)
        | (s2, .diverge) => (s2, .diverge)) = (s', .ok v) ∧ s.Moved s' n := by
      rcases skipSpacesFeeding_spec s { s with jidx := s.jidx + (f s.jdata).1 } tok fuel h rfl rfl hl hl2 hf with
        ⟨s2, e, hfed, hjl, hpos⟩ | ⟨s2, kd, x, e, hcl⟩
      · rw [e]
        simp only
        obtain ⟨s', e', hfed', hjl', hj', hle'⟩ := retryLoop_complete hg0 hc hbuf fuel s2 hfed hjl (by
            rcases hpos with h0 | ⟨h1, h2, h3, h4⟩
            · exact .inl h0
            · right
              simp only at h1
              have hnb : s2.b.nBytes = s.b.nBytes := by
                have := congrArg List.length h4
                rwa [valid_length hfed.ok, hvl] at this
              have hjd2 : s2.jdata = s.jdata.drop (f s.jdata).1 := by
                have e1 : s2.jdata = s2.b.valid.drop s2.jidx := by rw [jdata, hjl]; rfl
                have e2 : s.jdata = s.b.valid := by rw [jdata_eq h, h2]; rfl
                rw [e1, h4, h1, h2, Nat.zero_add]
                conv => rhs; rw [e2]
                rw [← e2]
              rw [h3, Nat.sub_self] at hneed
              refine ⟨by omega, ?_⟩
              rw [hjd2, h1, hnb, h2, Nat.zero_add]
              exact hre h2 h3 (by omega))
          (by have := hfed.size; omega)
        refine ⟨s', e', ?_⟩
        have hm := Moved.ofFed (s' := s') hfed' hjl' (by omega) (.inr (by
          intro t ht hh; have := htok t ht hh; omega))
        rw [hj', ← hn] at hm
        exact hm
      · exact (hcl hc).elim
    simp only [loopUntilSuccess, call]
    rcases hfv : f s.jdata with ⟨m, r⟩
    rw [hfv] at hR hretry
    cases r with
    | error er => exact hretry
    | ok w =>
      simp only [Retry] at hR
      have hro : (({ s with jidx := s.jidx + m } : RJ).reallyOk eager) = false := by
        simp only [reallyOk, hR.1]; simp; omega
      simp only [hro, Bool.false_eq_true, if_false]
      exact hretry

end RJ

end Verif.RJiter
