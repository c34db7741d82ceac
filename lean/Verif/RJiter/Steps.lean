import Verif.RJiter.Collect

/-!
# Lookahead, skipping and feeding on the level of `RJ`
-/

namespace Verif.RJiter

open Buffer

namespace RJ

theorem jdata_eq {s : RJ} (h : s.Sync) : s.jdata = s.b.valid.drop s.jidx := by
  rw [jdata, h.len]; rfl

theorem rest_eq {s : RJ} (h : s.Sync) : s.rest = s.jdata ++ s.b.reader.pending := by
  rw [jdata_eq h]; rfl

/-- A state whose buffer has the old position at `k`, and whose jiter is fresh at `k`. -/
theorem Moved.ofFrame {s s' : RJ} (hf : Frame s.b s'.b s.jidx s'.jidx) (hl : s'.jlen = s'.b.nBytes) :
    s.Moved s' 0 := by
  refine ⟨⟨hf.ok, hl, hf.pos⟩, Nat.zero_le _, hf.rest, ?_, hf.len, hf.size, hf.clean⟩
  have := hf.idx
  simp only [currentIndex]; omega

theorem slice_valid {b : Buffer} {k e : Nat} (h : b.nBytes ≤ b.buf.length) (hke : k ≤ e) (he : e ≤ b.nBytes) :
    slice? b.buf k e = some ((b.valid.drop k).take (e - k)) := by
  simp only [slice?]
  rw [if_pos ⟨hke, by omega⟩]
  congr 1
  rw [Buffer.valid, List.drop_take, List.take_take]
  congr 1
  omega

/-- The common end of the two lookaheads: the collected bytes are returned, the position is kept. -/
theorem lookaheadEnd_spec {s : RJ} (h : s.Sync) {b1 : Buffer} {k e : Nat}
    (hf : Frame s.b b1 s.jidx k)
    (hk : (k = s.jidx ∧ b1.nShifted = s.b.nShifted) ∨ (k = 0 ∧ 0 < s.jidx))
    (hke : k ≤ e) (he : e ≤ b1.nBytes) :
    ∃ s', s.lookaheadEnd b1 k e = (s', .ok ((b1.valid.drop k).take (e - k))) ∧ s.Moved s' 0 := by
  have hidx := hf.idx
  have hv1 := valid_length hf.ok
  simp only [lookaheadEnd]
  by_cases hc : isChanged s.b b1 = true
  · rw [if_pos hc]
    by_cases hs : s.b.nShifted = b1.nShifted ∧ s.jidx > 0
    · rw [if_pos hs]
      have hkk : k = s.jidx := by omega
      subst hkk
      rw [if_neg (by omega)]
      have hsp := b1.shift_spec hf.ok (Nat.zero_le s.jidx)
      have hf2 : Frame b1 (b1.shift 0 s.jidx) s.jidx 0 := .shift0 hf.ok hf.pos
      rw [slice_valid hf2.ok (Nat.zero_le _) (by rw [hsp.2.1]; omega)]
      refine ⟨_, ?_, Moved.ofFrame (s' := ({ s with b := b1.shift 0 s.jidx } : RJ).refresh) (hf.trans hf2) rfl⟩
      simp only [hsp.1]; simp
    · rw [if_neg hs]
      rw [show slice? (({ s with b := b1 } : RJ).refresh).b.buf k e = _ from slice_valid hf.ok hke he]
      have hk0 : k = 0 := by
        rcases hk with ⟨h1, h2⟩ | h2
        · have : ¬ s.jidx > 0 := fun h3 => hs ⟨h2.symm, h3⟩
          omega
        · exact h2.1
      refine ⟨_, rfl, Moved.ofFrame (s' := ({ s with b := b1 } : RJ).refresh) ?_ rfl⟩
      rw [hk0] at hf
      exact hf
  · rw [if_neg hc]
    simp only [isChanged, Bool.or_eq_true, bne_iff_ne, ne_eq, not_or, Classical.not_not] at hc
    have hkk : k = s.jidx := by omega
    subst hkk
    rw [slice_valid hf.ok hke he]
    refine ⟨_, rfl, Moved.ofFrame hf ?_⟩
    show s.jlen = b1.nBytes
    rw [h.len, hc.2]

/-- Everything `lookahead_while` can do. -/
theorem lookaheadWhile_spec (s : RJ) (p : Byte → Bool) (fuel : Nat) (h : s.Sync)
    (hf : s.b.reader.size < fuel) :
    (∃ s', s.lookaheadWhile fuel p = (s', .ok (s.rest.takeWhile p)) ∧ s.Moved s' 0) ∨
    (∃ s' x, s.lookaheadWhile fuel p = (s', .err ⟨.bufferFull, x⟩) ∧
      (∀ c ∈ s.rest.take s.b.buf.length, p c = true) ∧ s.b.buf.length ≤ s.rest.length ∧
      s'.jidx = s.jidx ∧ s'.jlen = s.jlen ∧ Frame s.b s'.b s.jidx 0) ∨
    (∃ s' kd x, s.lookaheadWhile fuel p = (s', .err ⟨.io kd, x⟩) ∧ ¬ s.b.reader.Clean) := by
  have hpost := collectWhile_spec p s.jidx true s.b fuel h.ok h.idx hf
  rcases hx : s.b.collectWhile fuel p s.jidx true with ⟨b1, r⟩
  rw [hx] at hpost
  obtain ⟨k, hfr, hk, hcase⟩ := hpost
  simp only at hfr hk hcase
  have hk' : (k = s.jidx ∧ b1.nShifted = s.b.nShifted) ∨ (k = 0 ∧ 0 < s.jidx) := by
    rcases hk with h1 | h1
    · exact .inl ⟨h1.1, h1.2.1⟩
    · exact .inr ⟨h1.1, h1.2.1⟩
  simp only [lookaheadWhile, hx]
  rcases hcase with ⟨e, rfl, hke, hen, hsl, hend⟩ | ⟨x, rfl, hfull, hall, hk0⟩ | ⟨kd, x, rfl, hcl⟩
  · left
    obtain ⟨s', e1, hm⟩ := lookaheadEnd_spec h hfr hk' hke hen
    refine ⟨s', ?_, hm⟩
    simp only [e1, hsl]; rfl
  · right; left
    have hk0 := hk0 trivial
    subst hk0
    have hrest : s.rest = b1.valid ++ b1.reader.pending := by
      have := hfr.rest; simp only [List.drop_zero] at this; exact this.symm
    have hv1 := valid_length hfr.ok
    refine ⟨_, x, rfl, ?_, ?_, rfl, rfl, hfr⟩
    · rw [hrest, ← hfr.len, List.take_append_of_le_length (by omega), List.take_of_length_le (by omega)]
      simpa using hall
    · rw [hrest, List.length_append, ← hfr.len]; omega
  · right; right
    exact ⟨_, kd, x, rfl, hcl⟩

/-- Everything `lookahead_n` can do. -/
theorem lookaheadN_spec (s : RJ) (n : Nat) (fuel : Nat) (h : s.Sync) (hf : s.b.reader.size < fuel) :
    (∃ s', s.lookaheadN fuel n = (s', .ok (s.rest.take n)) ∧ s.Moved s' 0) ∨
    (∃ s' x, s.lookaheadN fuel n = (s', .err ⟨.bufferFull, x⟩) ∧ s.b.buf.length < n ∧
      s'.b.nBytes = s'.b.buf.length ∧ s'.jidx = s.jidx ∧ s'.jlen = s.jlen ∧ Frame s.b s'.b s.jidx s.jidx) ∨
    (∃ s' kd x, s.lookaheadN fuel n = (s', .err ⟨.io kd, x⟩) ∧ ¬ s.b.reader.Clean) := by
  have hpost := collectCount_spec n s.jidx true s.b fuel h.ok h.idx hf
  rcases hx : s.b.collectCount fuel n s.jidx true with ⟨b1, r⟩
  rw [hx] at hpost
  obtain ⟨k, hfr, hk, hcase⟩ := hpost
  simp only at hfr hk hcase
  have hk' : (k = s.jidx ∧ b1.nShifted = s.b.nShifted) ∨ (k = 0 ∧ 0 < s.jidx) := by
    rcases hk with h1 | h1
    · exact .inl h1
    · exact .inr ⟨h1.1, h1.2.1⟩
  simp only [lookaheadN, hx]
  rcases hcase with ⟨e, rfl, hke, hen, hsl⟩ | ⟨x, rfl, rfl, hfull, _, hbig⟩ | ⟨kd, x, rfl, hcl⟩
  · left
    obtain ⟨s', e1, hm⟩ := lookaheadEnd_spec h hfr hk' hke hen
    refine ⟨s', ?_, hm⟩
    simp only [e1, hsl]; rfl
  · right; left
    exact ⟨_, x, rfl, by have := hbig trivial; rw [hfr.len] at this; exact this, hfull, rfl, rfl, hfr⟩
  · right; right
    exact ⟨_, kd, x, rfl, hcl⟩

/-- Everything `skip_n_bytes` can do. -/
theorem skipNBytes_spec (s : RJ) (n : Nat) (fuel : Nat) (h : s.Sync) (hl : 0 < s.b.buf.length)
    (hf : s.b.reader.size < fuel) :
    (∃ s', s.skipNBytes fuel n = (s', .ok (min n s.rest.length)) ∧ s.Moved s' (min n s.rest.length)) ∨
    (∃ s' kd x, s.skipNBytes fuel n = (s', .err ⟨.io kd, x⟩) ∧ ¬ s.b.reader.Clean) := by
  have hpost := skipN_spec n s.jidx fuel s.b h.ok h.idx hl hf
  rcases hx : s.b.skipN fuel n s.jidx with ⟨b1, r⟩
  rw [hx] at hpost
  simp only [skipNBytes, hx]
  rcases hpost with ⟨p, t, hr, hp, ht, hok, hlen, hrest, hidx, hsz, hcl⟩ | ⟨kd, x, hr, hcl⟩
  · simp only at hr hp hok hlen hrest hidx hsz hcl
    subst hr
    left
    have hf2 : Frame b1 (b1.shift 0 p) p 0 := .shift0 hok hp
    have e : min n (s.b.rest s.jidx).length = min n s.rest.length := rfl
    refine ⟨_, by rw [ht, e], ?_⟩
    have hi2 := hf2.idx
    refine ⟨⟨hf2.ok, rfl, Nat.zero_le _⟩, by omega, ?_, ?_, by show (b1.shift 0 p).buf.length = _; rw [hf2.len]; exact hlen,
      Nat.le_trans hf2.size hsz, fun hc => hf2.clean (hcl hc)⟩
    · show (b1.shift 0 p).rest 0 = _
      rw [show (b1.shift 0 p).rest 0 = b1.rest p from hf2.rest, hrest]
      show s.rest.drop n = _
      by_cases hn : n ≤ s.rest.length
      · rw [Nat.min_eq_left hn]
      · rw [List.drop_eq_nil_of_le (by omega), List.drop_eq_nil_of_le (by omega)]
    · show 0 + (b1.shift 0 p).nShifted = s.jidx + s.b.nShifted + _
      rw [e] at ht; omega
  · simp only at hr
    subst hr
    right
    exact ⟨_, kd, x, rfl, hcl⟩

/-- Everything `known_skip_token` can do with a token that fits. -/
theorem knownSkipToken_spec (s : RJ) (t : Bytes) (fuel : Nat) (h : s.Sync) (hl : 0 < s.b.buf.length)
    (ht : t.length ≤ s.b.buf.length) (hf : s.b.reader.size < fuel) :
    (∃ s', s.knownSkipToken fuel t = (s', .ok ()) ∧ s.Moved s' t.length ∧ s.rest.take t.length = t) ∨
    (∃ s' x, s.knownSkipToken fuel t = (s', .err ⟨.json .expectedSomeIdent, x⟩) ∧ s.Moved s' 0 ∧
      x = s.currentIndex ∧ s.rest.take t.length ≠ t) ∨
    (∃ s' kd x, s.knownSkipToken fuel t = (s', .err ⟨.io kd, x⟩) ∧ ¬ s.b.reader.Clean) := by
  rcases lookaheadN_spec s t.length fuel h hf with ⟨s1, e, hm⟩ | ⟨s', x, e, hbig, _⟩ | ⟨s', kd, x, e, hcl⟩
  · simp only [knownSkipToken, e]
    by_cases heq : s.rest.take t.length = t
    · rw [if_pos heq]
      have hlen : t.length ≤ s.rest.length := by
        have := congrArg List.length heq
        simp at this; omega
      rcases skipNBytes_spec s1 t.length fuel hm.sync (by rw [hm.buf]; exact hl)
        (Nat.lt_of_le_of_lt hm.size hf) with ⟨s2, e2, hm2⟩ | ⟨s2, kd, x, e2, hcl⟩
      · left
        have hr : s1.rest = s.rest := hm.rest
        rw [hr, Nat.min_eq_left hlen] at hm2
        refine ⟨s2, by rw [e2], ?_, heq⟩
        have := hm.trans hm2
        rwa [Nat.zero_add] at this
      · right; right
        exact ⟨s2, kd, x, by rw [e2], fun hc => hcl (hm.clean hc)⟩
    · rw [if_neg heq]
      right; left
      exact ⟨s1, _, rfl, hm, hm.index, heq⟩
  · omega
  · right; right
    exact ⟨s', kd, x, by simp only [knownSkipToken, e], hcl⟩

/-! ### `skip_spaces_feeding` -/

/-- What `skip_spaces_feeding` makes of the rest of the stream: leading spaces are dropped, and those behind
the transparent token, if the stream then starts with it. -/
def norm (tok : Option Byte) (r : Bytes) : Bytes :=
  match tok, r.dropWhile isAsciiWs with
  | some t, c :: r2 => if c = t then c :: r2.dropWhile isAsciiWs else c :: r2
  | _, r1 => r1

theorem dropWhile_len_le {α : Type} (p : α → Bool) (l : List α) : (l.dropWhile p).length ≤ l.length := by
  rw [dropWhile_eq_drop]; simp

theorem norm_length_le (tok : Option Byte) (r : Bytes) : (norm tok r).length ≤ r.length := by
  have h1 := dropWhile_len_le isAsciiWs r
  unfold norm
  split
  · rename_i t c r2 heq
    have h2 := dropWhile_len_le isAsciiWs r2
    rw [heq] at h1
    split
    · simp at h1 ⊢; omega
    · exact h1
  · exact h1

theorem dropWhile_eq_of_length {p : Byte → Bool} {l : Bytes} (h : (l.dropWhile p).length = l.length) :
    l.dropWhile p = l := by
  cases l with
  | nil => rfl
  | cons a l =>
    rw [List.dropWhile_cons] at h ⊢
    split
    · rename_i hp; rw [if_pos hp] at h
      have := dropWhile_len_le p l
      simp at h; omega
    · rfl

theorem norm_eq_of_length {tok : Option Byte} {r : Bytes} (h : (norm tok r).length = r.length) :
    norm tok r = r := by
  have h1 := dropWhile_len_le isAsciiWs r
  unfold norm at h ⊢
  split at h
  · rename_i t c r2 heq
    split at h
    · rename_i hct
      have h2 := dropWhile_len_le isAsciiWs r2
      rw [heq] at h1
      simp only [List.length_cons] at h h1
      have e1 : r.dropWhile isAsciiWs = r := dropWhile_eq_of_length (by rw [heq]; simp; omega)
      have e2 : r2.dropWhile isAsciiWs = r2 := dropWhile_eq_of_length (by
        rw [e1] at heq; rw [heq] at h; simp at h; omega)
      rw [if_pos hct, e2, ← heq, e1]
    · rename_i hct
      rw [if_neg hct, ← heq]
      exact dropWhile_eq_of_length (by rw [heq]; exact h)
  · exact dropWhile_eq_of_length h

/-- State of the buffer after `skip_spaces_feeding`: the stream from position 0 on is `r`. -/
structure Fed (tok : Option Byte) (s : RJ) (b : Buffer) : Prop where
  ok : b.nBytes ≤ b.buf.length
  len : b.buf.length = s.b.buf.length
  rest : b.rest 0 = norm tok s.rest
  idx : b.nShifted + (norm tok s.rest).length = s.currentIndex + s.rest.length
  size : b.reader.size ≤ s.b.reader.size
  clean : s.b.reader.Clean → b.reader.Clean
  eof : b.nBytes = 0 → b.reader = []

/-- `s1` is `s` after a jiter call that may have moved the jiter index. Afterwards either the jiter is fresh,
or nothing at all has changed since `s1`. -/
theorem skipSpacesFeeding_spec (s s1 : RJ) (tok : Option Byte) (fuel : Nat) (h : s.Sync) (hb : s1.b = s.b)
    (hjl : s1.jlen = s.jlen) (hl : 0 < s.b.buf.length)
    (hl2 : tok ≠ none → 1 < s.b.buf.length) (hf : s.b.reader.size + 2 ≤ fuel) :
    (∃ s2, s1.skipSpacesFeeding fuel s.jidx tok = (s2, .ok ()) ∧ Fed tok s s2.b ∧ s2.jlen = s2.b.nBytes ∧
      (s2.jidx = 0 ∨ (s2.jidx = s1.jidx ∧ s.jidx = 0 ∧ norm tok s.rest = s.rest ∧ s2.b.valid = s.b.valid))) ∨
    (∃ s2 kd x, s1.skipSpacesFeeding fuel s.jidx tok = (s2, .err ⟨.io kd, x⟩) ∧ ¬ s.b.reader.Clean) := by
  -- the end of the function
  have hdone : ∀ b : Buffer, Fed tok s b →
      ∃ s2, (if isChanged s1.b b then (({ s1 with b := b } : RJ).refresh, (Res.ok () : Res Unit))
        else ({ s1 with b := b }, .ok ())) = (s2, .ok ()) ∧ Fed tok s s2.b ∧ s2.jlen = s2.b.nBytes ∧
      (s2.jidx = 0 ∨ (s2.jidx = s1.jidx ∧ s.jidx = 0 ∧ norm tok s.rest = s.rest ∧ s2.b.valid = s.b.valid)) := by
    intro b hfed
    by_cases hc : isChanged s1.b b = true
    · rw [if_pos hc]
      exact ⟨_, rfl, hfed, rfl, .inl rfl⟩
    · rw [if_neg hc]
      simp only [isChanged, Bool.or_eq_true, bne_iff_ne, ne_eq, not_or, Classical.not_not, hb] at hc
      have hi := hfed.idx
      have hle := norm_length_le tok s.rest
      simp only [currentIndex] at hi
      refine ⟨_, rfl, hfed, by show s1.jlen = b.nBytes; rw [hjl, h.len]; exact hc.2, .inr ⟨rfl, by omega, ?_, ?_⟩⟩
      · exact norm_eq_of_length (by omega)
      · have hn : norm tok s.rest = s.rest := norm_eq_of_length (by omega)
        have hr := hfed.rest
        have hj : s.jidx = 0 := by omega
        rw [hn, RJ.rest, hj, Buffer.rest, Buffer.rest] at hr
        simp only [List.drop_zero] at hr
        exact (List.append_inj hr (by rw [valid_length hfed.ok, valid_length h.ok]; exact hc.2.symm)).1
  -- the first shift
  obtain ⟨b0, hb0, hfr0⟩ : ∃ b0, (if s.jidx > 0 then s1.b.shift 0 s.jidx else s1.b) = b0 ∧ Frame s.b b0 s.jidx 0 := by
    refine ⟨_, rfl, ?_⟩
    rw [hb]
    by_cases hj : s.jidx > 0
    · rw [if_pos hj]; exact .shift0 h.ok h.idx
    · rw [if_neg hj, show s.jidx = 0 by omega]; exact .refl h.ok (Nat.zero_le _)
  have hlen0 := hfr0.len
  have hsz0 := hfr0.size
  have hrest0 : b0.rest 0 = s.rest := hfr0.rest
  simp only [skipSpacesFeeding, hb0]
  obtain ⟨b1, r, e1, hpost⟩ := skipSpaces_spec 0 fuel b0 hfr0.ok (Nat.zero_le _) (by omega) (by omega)
  rw [e1]
  rcases hpost with ⟨rfl, hp1⟩ | ⟨kd, x, rfl, hcl⟩
  case inr => exact .inr ⟨_, kd, x, rfl, fun hc => hcl (hfr0.clean hc)⟩
  have hidx0 := hfr0.idx
  have hi1 := hp1.idx
  have hsz1 := hp1.size
  have hlen1 := hp1.len
  have hr1 : b1.rest 0 = s.rest.dropWhile isAsciiWs := by rw [hp1.rest, hrest0]
  rw [hr1, hrest0] at hi1
  -- `b1` is what is wanted if there is no token to be treated
  have hfed1 : norm tok s.rest = s.rest.dropWhile isAsciiWs → Fed tok s b1 := by
    intro hn
    refine ⟨hp1.ok, by omega, by rw [hn, hr1], ?_, by omega, fun hc => hp1.clean (hfr0.clean hc), hp1.eof⟩
    rw [hn]; simp only [currentIndex]; omega
  cases tok with
  | none =>
    left
    exact hdone b1 (hfed1 rfl)
  | some t =>
    have hl2 := hl2 (by simp)
    simp only
    by_cases hz : b1.nBytes ≤ 0
    · -- end of input
      have hz' : b1.nBytes = 0 := by omega
      have hrd := hp1.eof hz'
      rw [if_pos hz]
      have hrm : b1.readMore = (b1, .ok 0) := by
        rcases b1.readMore_cases hp1.ok with ⟨_, e⟩ | ⟨_, e⟩ | ⟨q, r', _, hr, e⟩ |
          ⟨b', bs, e, hb, hv, hn, ho, hl', hp, hs, hcl, _⟩
        · exact e
        · exact e
        · rw [hrd] at hr; simp at hr
        · have hz0 : b1.reader.size = 0 := by rw [hrd]; rfl
          omega
      rw [hrm]
      simp only
      rw [if_neg (by omega)]
      left
      apply hdone b1 (hfed1 _)
      have : b1.rest 0 = [] := by
        rw [Buffer.rest, hrd, Buffer.valid, hz']; rfl
      rw [hr1] at this
      simp [norm, this]
    · rw [if_neg hz]
      simp only
      -- the first byte
      have hv1 := valid_length hp1.ok
      obtain ⟨c, v2, hcv⟩ : ∃ c v2, b1.valid = c :: v2 := by
        cases hv : b1.valid with
        | nil => rw [hv] at hv1; simp at hv1; omega
        | cons c v2 => exact ⟨c, v2, rfl⟩
      have hbuf0 : b1.buf[0]? = some c := by
        have : b1.valid[0]? = some c := by rw [hcv]; rfl
        rw [Buffer.valid, List.getElem?_take] at this
        simpa [show 0 < b1.nBytes by omega] using this
      have hr1' : s.rest.dropWhile isAsciiWs = c :: (v2 ++ b1.reader.pending) := by
        rw [← hr1, Buffer.rest, hcv]; rfl
      by_cases hct : c = t
      · rw [if_pos ⟨by omega, by rw [hbuf0, hct]⟩]
        obtain ⟨b3, r3, e3, hpost3⟩ := skipSpaces_spec 1 fuel b1 hp1.ok (by omega) (by omega) (by omega)
        rw [e3]
        rcases hpost3 with ⟨rfl, hp3⟩ | ⟨kd, x, rfl, hcl⟩
        case inr => exact .inr ⟨_, kd, x, rfl, fun hc => hcl (hp1.clean (hfr0.clean hc))⟩
        left
        apply hdone b3
        have hrest1 : b1.rest 1 = v2 ++ b1.reader.pending := by rw [Buffer.rest, hcv]; rfl
        have hnorm : norm (some t) s.rest = c :: (v2 ++ b1.reader.pending).dropWhile isAsciiWs := by
          simp only [norm, hr1', hct, if_true]
        have hi3 := hp3.idx
        have hrest3 : b3.rest 1 = (v2 ++ b1.reader.pending).dropWhile isAsciiWs := by rw [hp3.rest, hrest1]
        rw [hrest3, hrest1] at hi3
        have hv3 := valid_length hp3.ok
        have hle3 := hp3.le
        obtain ⟨c3, v3, hcv3⟩ : ∃ c v, b3.valid = c :: v := by
          cases hv : b3.valid with
          | nil => rw [hv] at hv3; simp at hv3; omega
          | cons c v => exact ⟨c, v, rfl⟩
        have hc3 : c3 = c := by
          have := hp3.before
          rw [hcv, hcv3] at this
          simpa using this
        have hr3 : b3.rest 0 = norm (some t) s.rest := by
          rw [hnorm, ← hrest3, Buffer.rest, Buffer.rest, hcv3, hc3]; rfl
        refine ⟨hp3.ok, by have := hp3.len; omega, hr3, ?_, by have := hp3.size; omega,
          fun hc => hp3.clean (hp1.clean (hfr0.clean hc)), by intro h0; omega⟩
        rw [hnorm]
        rw [hr1'] at hi1
        simp only [List.length_cons, currentIndex] at hi1 ⊢
        omega
      · rw [if_neg (by rw [hbuf0]; simp [hct])]
        left
        apply hdone b1 (hfed1 _)
        simp [norm, hr1', hct]

end RJ

end Verif.RJiter
