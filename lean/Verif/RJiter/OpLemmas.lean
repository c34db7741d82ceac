import Verif.RJiter.Long
import Verif.RJiter.Trace
import Verif.RJiter.Calls
import Verif.RJiter.WholeBound

/-!
# Every call moves forward, and returns
-/

namespace Verif.RJiter

open Buffer RJ Jiter

/-- What any call may do from a state between two calls: return; if it succeeds (or has one of the harmless
answers) the stream has moved forward; a panic only in the functions for long strings, with a tiny buffer. -/
def OpRes (s : RJ) (op : Op) (x : RJ × Res Unit) : Prop :=
  ((∃ e, x.2 = .ok () ∨ x.2 = .err e) ∨ (x.2 = .panic ∧ s.b.buf.length < 8)) ∧
  (op.Kept x.2 → ∃ n, s.Moved x.1 n)

theorem loop_opRes {α : Type} {f : JFn α} {tok : Option Byte} {eager : Bool} (hs : JSound f tok) (op : Op)
    (s : RJ) (fuel : Nat) (h : s.Sync) (hl : 2 ≤ s.b.buf.length) (hf : enoughFuel s fuel)
    (hop : ∀ t, op ≠ .knownSkipToken t) (hop2 : op ≠ .finish) :
    OpRes s op ((s.loopUntilSuccess fuel f tok eager).1, (s.loopUntilSuccess fuel f tok eager).2.void) := by
  unfold enoughFuel at hf
  obtain ⟨s', r, e, hr⟩ := loopUntilSuccess_sound (eager := eager) hs s fuel h (by omega) (by intro _; omega) (by omega)
  rw [e]
  rcases hr with ⟨v, n, rfl, hm⟩ | ⟨er, rfl, _⟩
  · exact ⟨.inl ⟨⟨.wrongType, 0⟩, .inl rfl⟩, fun _ => ⟨n, hm⟩⟩
  · refine ⟨.inl ⟨er, .inr rfl⟩, ?_⟩
    intro hk
    simp only [Res.void] at hk
    cases hk
    · exact absurd rfl (hop _)
    · exact absurd rfl hop2

theorem long_opRes (k : Kind) (op : Op) (s : RJ) (w : Writer) (fuel : Nat) (h : s.Sync) (hf : enoughFuel s fuel)
    (hop : ∀ t, op ≠ .knownSkipToken t) (hop2 : op ≠ .finish) :
    OpRes s op ((s.handleLong k fuel w).1.1, (s.handleLong k fuel w).2) := by
  unfold enoughFuel at hf
  rcases handleLong_sound k s fuel s w (.inl ⟨rfl, h⟩) (by omega) with ⟨s', w', n, e, hm⟩ | ⟨s', w', er, e⟩ |
    ⟨s', w', e, hb⟩
  · rw [e]; exact ⟨.inl ⟨⟨.wrongType, 0⟩, .inl rfl⟩, fun _ => ⟨n, hm⟩⟩
  · rw [e]
    refine ⟨.inl ⟨er, .inr rfl⟩, ?_⟩
    intro hk
    cases hk
    · exact absurd rfl (hop _)
    · exact absurd rfl hop2
  · rw [e]
    refine ⟨.inr ⟨rfl, hb⟩, ?_⟩
    intro hk
    cases hk

theorem Op.run_res (op : Op) (s : RJ) (fuel : Nat) (h : s.Sync) (hl : 2 ≤ s.b.buf.length) (hf : enoughFuel s fuel) :
    OpRes s op (op.run fuel s) := by
  have hf' := hf
  unfold enoughFuel at hf'
  cases op with
  | peek => exact loop_opRes peek_jsound _ s fuel h hl hf (by simp) (by simp)
  | knownArray => exact loop_opRes knownArray_jsound _ s fuel h hl hf (by simp) (by simp)
  | knownBool pk => exact loop_opRes (PrefixFn.jsound (knownBool_prefix pk)) _ s fuel h hl hf (by simp) (by simp)
  | knownBytes => exact loop_opRes (PrefixFn.jsound knownBytes_prefix) _ s fuel h hl hf (by simp) (by simp)
  | knownNull => exact loop_opRes (PrefixFn.jsound knownNull_prefix) _ s fuel h hl hf (by simp) (by simp)
  | knownObject => exact loop_opRes (knownObject_jsound knownStr_prefix) _ s fuel h hl hf (by simp) (by simp)
  | knownStr => exact loop_opRes (PrefixFn.jsound knownStr_prefix) _ s fuel h hl hf (by simp) (by simp)
  | nextArray => exact loop_opRes nextArray_jsound _ s fuel h hl hf (by simp) (by simp)
  | arrayStep => exact loop_opRes arrayStep_jsound _ s fuel h hl hf (by simp) (by simp)
  | nextBool => exact loop_opRes nextBool_jsound _ s fuel h hl hf (by simp) (by simp)
  | nextBytes => exact loop_opRes (nextString_jsound knownBytes_prefix) _ s fuel h hl hf (by simp) (by simp)
  | nextKey => exact loop_opRes (nextKey_jsound knownStr_prefix) _ s fuel h hl hf (by simp) (by simp)
  | nextKeyBytes => exact loop_opRes (nextKey_jsound knownBytes_prefix) _ s fuel h hl hf (by simp) (by simp)
  | nextNull => exact loop_opRes nextNull_jsound _ s fuel h hl hf (by simp) (by simp)
  | nextNumberBytes => exact loop_opRes nextNumber_jsound _ s fuel h hl hf (by simp) (by simp)
  | nextObject => exact loop_opRes (nextObject_jsound knownStr_prefix) _ s fuel h hl hf (by simp) (by simp)
  | nextObjectBytes => exact loop_opRes (nextObject_jsound knownBytes_prefix) _ s fuel h hl hf (by simp) (by simp)
  | nextStr => exact loop_opRes (nextString_jsound knownStr_prefix) _ s fuel h hl hf (by simp) (by simp)
  | knownFloat pk => exact loop_opRes (knownNum_jsound numberTok_jsound pk) _ s fuel h hl hf (by simp) (by simp)
  | knownInt pk => exact loop_opRes (knownNum_jsound numberInt_jsound pk) _ s fuel h hl hf (by simp) (by simp)
  | knownNumber pk => exact loop_opRes (knownNum_jsound numberAny_jsound pk) _ s fuel h hl hf (by simp) (by simp)
  | knownSkip pk => exact loop_opRes (knownWhole_jsound Decoders.skip_sound pk) _ s fuel h hl hf (by simp) (by simp)
  | knownValue pk => exact loop_opRes (knownWhole_jsound Decoders.value_sound pk) _ s fuel h hl hf (by simp) (by simp)
  | nextFloat => exact loop_opRes (nextNum_jsound numberTok_jsound) _ s fuel h hl hf (by simp) (by simp)
  | nextInt => exact loop_opRes (nextNum_jsound numberInt_jsound) _ s fuel h hl hf (by simp) (by simp)
  | nextNumber => exact loop_opRes (nextNum_jsound numberAny_jsound) _ s fuel h hl hf (by simp) (by simp)
  | nextSkip => exact loop_opRes (nextWhole_jsound Decoders.skip_sound) _ s fuel h hl hf (by simp) (by simp)
  | nextValue => exact loop_opRes (nextWhole_jsound Decoders.value_sound) _ s fuel h hl hf (by simp) (by simp)
  | finish =>
    have : 2 * s.b.reader.size + (if s.b.nBytes = s.b.buf.length then 1 else 0) < fuel := by split <;> omega
    simp only [Op.run, RJ.finish]
    rcases finishLoop_spec fuel s h (by omega) this with ⟨s', e, _, hm⟩ | ⟨s', x, ws, c, t, e, _, _, _, hm⟩ |
      ⟨s', kd, x, e, _⟩
    · rw [e]; exact ⟨.inl ⟨⟨.wrongType, 0⟩, .inl rfl⟩, fun _ => ⟨_, hm⟩⟩
    · rw [e]; exact ⟨.inl ⟨_, .inr rfl⟩, fun _ => ⟨_, hm⟩⟩
    · rw [e]; exact ⟨.inl ⟨_, .inr rfl⟩, fun hk => by cases hk⟩
  | lookaheadWhile p =>
    simp only [Op.run]
    rcases lookaheadWhile_spec s p fuel h (by omega) with ⟨s', e, hm⟩ | ⟨s', x, e, _⟩ | ⟨s', kd, x, e, _⟩
    · rw [e]; exact ⟨.inl ⟨⟨.wrongType, 0⟩, .inl rfl⟩, fun _ => ⟨_, hm⟩⟩
    · rw [e]; exact ⟨.inl ⟨_, .inr rfl⟩, fun hk => by simp only [Res.void] at hk; cases hk⟩
    · rw [e]; exact ⟨.inl ⟨_, .inr rfl⟩, fun hk => by simp only [Res.void] at hk; cases hk⟩
  | lookaheadN n =>
    simp only [Op.run]
    rcases lookaheadN_spec s n fuel h (by omega) with ⟨s', e, hm⟩ | ⟨s', x, e, _⟩ | ⟨s', kd, x, e, _⟩
    · rw [e]; exact ⟨.inl ⟨⟨.wrongType, 0⟩, .inl rfl⟩, fun _ => ⟨_, hm⟩⟩
    · rw [e]; exact ⟨.inl ⟨_, .inr rfl⟩, fun hk => by simp only [Res.void] at hk; cases hk⟩
    · rw [e]; exact ⟨.inl ⟨_, .inr rfl⟩, fun hk => by simp only [Res.void] at hk; cases hk⟩
  | skipNBytes n =>
    simp only [Op.run]
    rcases skipNBytes_spec s n fuel h (by omega) (by omega) with ⟨s', e, hm⟩ | ⟨s', kd, x, e, _⟩
    · rw [e]; exact ⟨.inl ⟨⟨.wrongType, 0⟩, .inl rfl⟩, fun _ => ⟨_, hm⟩⟩
    · rw [e]; exact ⟨.inl ⟨_, .inr rfl⟩, fun hk => by simp only [Res.void] at hk; cases hk⟩
  | knownSkipToken t =>
    simp only [Op.run]
    by_cases ht : t.length ≤ s.b.buf.length
    · rcases knownSkipToken_spec s t fuel h (by omega) ht (by omega) with ⟨s', e, hm, _⟩ | ⟨s', x, e, hm, _⟩ |
        ⟨s', kd, x, e, _⟩
      · rw [e]; exact ⟨.inl ⟨⟨.wrongType, 0⟩, .inl rfl⟩, fun _ => ⟨_, hm⟩⟩
      · rw [e]; exact ⟨.inl ⟨_, .inr rfl⟩, fun _ => ⟨_, hm⟩⟩
      · rw [e]; exact ⟨.inl ⟨_, .inr rfl⟩, fun hk => by cases hk⟩
    · rcases lookaheadN_spec s t.length fuel h (by omega) with ⟨s1, e, hm⟩ | ⟨s', x, e, _⟩ | ⟨s', kd, x, e, _⟩
      · simp only [RJ.knownSkipToken, e]
        by_cases heq : s.rest.take t.length = t
        · rw [if_pos heq]
          rcases skipNBytes_spec s1 t.length fuel hm.sync (by rw [hm.buf]; omega) (by have := hm.size; omega) with
            ⟨s2, e2, hm2⟩ | ⟨s2, kd, x, e2, _⟩
          · rw [e2]; exact ⟨.inl ⟨⟨.wrongType, 0⟩, .inl rfl⟩, fun _ => ⟨_, hm.trans hm2⟩⟩
          · rw [e2]; exact ⟨.inl ⟨_, .inr rfl⟩, fun hk => by cases hk⟩
        · rw [if_neg heq]
          exact ⟨.inl ⟨_, .inr rfl⟩, fun _ => ⟨_, hm⟩⟩
      · simp only [RJ.knownSkipToken, e]
        exact ⟨.inl ⟨_, .inr rfl⟩, fun hk => by cases hk⟩
      · simp only [RJ.knownSkipToken, e]
        exact ⟨.inl ⟨_, .inr rfl⟩, fun hk => by cases hk⟩
  | writeLongBytes w => exact long_opRes .raw _ s w fuel h hf (by simp) (by simp)
  | writeLongStr w => exact long_opRes .str _ s w fuel h hf (by simp) (by simp)

/-- A history moves forward. -/
theorem History.moved {s s' : RJ} {ops : List Op} (hh : History s ops s') (h : s.Sync) (hl : 2 ≤ s.b.buf.length) :
    ∃ n, s.Moved s' n := by
  induction hh with
  | nil s => exact ⟨0, .refl h⟩
  | @cons s s1 s2 op ops fuel r hf hrun hk _ ih =>
    have := (op.run_res s fuel h hl hf).2
    rw [hrun] at this
    obtain ⟨n, hm⟩ := this hk
    obtain ⟨m, hm2⟩ := ih hm.sync (by rw [hm.buf]; exact hl)
    exact ⟨n + m, hm.trans hm2⟩

theorem sync_new (r : Reader) (buf : Bytes) : (RJ.new r buf).Sync := ⟨Nat.zero_le _, rfl, Nat.le_refl _⟩

theorem rest_new (r : Reader) (buf : Bytes) : (RJ.new r buf).rest = r.pending := by
  simp [RJ.rest, RJ.new, Buffer.new, Buffer.rest, Buffer.valid]

/-- `peek` at the end of the input. -/
theorem RJ.peek_eof {s : RJ} {fuel : Nat} (h : s.Sync) (hcl : s.b.reader.Clean) (hf : s.b.reader.size + 2 ≤ fuel)
    (hl : 0 < s.b.buf.length) (hr : Ws s.rest) :
    ∃ s' x, s.peek fuel = (s', .err ⟨.json .eofWhileParsingValue, x⟩) := by
  have hre := rest_eq h
  have hw : Ws s.jdata := fun c hc => hr c (by rw [hre]; simp [hc])
  have hn : norm none s.rest = [] := by
    have : s.rest.dropWhile isAsciiWs = [] := by
      have := List.dropWhile_append_of_pos (p := isAsciiWs) (l₁ := s.rest) (l₂ := []) (fun c hc => isAscii_of_isWs (hr c hc))
      simpa using this
    simp only [norm, this]
  simp only [RJ.peek, loopUntilSuccess, call, peek_ws hw]
  rcases skipSpacesFeeding_spec s { s with jidx := s.jidx + s.jdata.length } none fuel h rfl rfl hl (by simp) hf with
    ⟨s2, e, hfed, hjl, hpos⟩ | ⟨s2, kd, x, e, hcl'⟩
  · rw [e]
    have hrest := hfed.rest
    rw [hn, Buffer.rest, List.append_eq_nil_iff, List.drop_zero] at hrest
    have hnb : s2.b.nBytes = 0 := by
      have := valid_length hfed.ok
      rw [hrest.1] at this; exact this.symm
    have hrd := hfed.eof hnb
    obtain ⟨fuel, rfl⟩ : ∃ m, fuel = m + 1 := ⟨fuel - 1, by omega⟩
    have hj : s2.jdata = [] := by simp [jdata, hjl, hnb]
    have hrm : s2.b.readMore = (s2.b, .ok 0) := by
      rcases s2.b.readMore_cases hfed.ok with ⟨_, e⟩ | ⟨_, e⟩ | ⟨q, r', _, hr, e⟩ | ⟨b', bs, e, hb, hv, hn, ho, hl', hp, hs, _⟩
      · exact e
      · exact e
      · rw [hrd] at hr; simp at hr
      · have : s2.b.reader.size = 0 := by rw [hrd]; rfl
        omega
    simp only [retryLoop, call, hj, peek_ws Ws.nil, canRetry, hrm]
    exact ⟨_, _, rfl⟩
  · exact absurd hcl hcl'

end Verif.RJiter
