import Verif.RJiter.NumSpec
import Verif.RJiter.Calls
import Verif.RJiter.Sound

/-!
# A number at the end of the input
-/

namespace Verif.RJiter

open Buffer RJ Jiter

namespace Jiter

theorem number_length_pos {num : Bytes} (h : Number num) : 0 < num.length := by
  obtain ⟨c, t, rfl, _⟩ := number_head h
  simp

theorem minusLen_take {num : Bytes} {k : Nat} (hk : 0 < k) : minusLen (num.take k) = minusLen num := by
  cases num with
  | nil => simp
  | cons c t => obtain ⟨k, rfl⟩ : ∃ j, k = j + 1 := ⟨k - 1, by omega⟩; simp [minusLen]

/-- A prefix of a number: jiter takes all of it, or asks for more. -/
theorem numberEnd_take {num : Bytes} (h : Number num) {k : Nat} (hk : k ≤ num.length) (hk0 : 0 < k) :
    numberEnd (num.take k) = .ok k ∨ ∃ j, numberEnd (num.take k) = .error (.eofWhileParsingValue, j) := by
  have hfull : numberEnd num = .ok num.length := by
    have := numberEnd_spec h (t := []) (by intro c hc; simp at hc)
    simpa using this
  rw [numberEnd_eq] at hfull
  obtain ⟨h1, h2, h3⟩ := numBody_num _ _ _ hfull
  rw [numberEnd_eq, minusLen_take hk0, List.drop_take]
  have hm : minusLen num ≤ 1 := by
    unfold minusLen
    split
    · split <;> omega
    · omega
  rcases (h3 (k - minusLen num)).2 (by omega) with e | e
  · left; rw [e]; congr 1; omega
  · right; exact e

theorem numHead_ws {c : Byte} (hc : c = 45 ∨ isDigit c = true) : isWs c = false := by
  rcases hc with rfl | hc
  · decide
  · rw [isDigit_iff] at hc
    cases hi : isWs c with
    | false => rfl
    | true =>
      simp only [isWs, Bool.or_eq_true, beq_iff_eq] at hi
      rcases hi with ((rfl | rfl) | rfl) | rfl <;> simp [Digit] at hc

theorem nextNumber_take {num : Bytes} (h : Number num) {ws : Bytes} (hw : Ws ws) {k : Nat} (hk : k ≤ num.length)
    (hk0 : 0 < k) :
    nextNumberBytes (ws ++ num.take k) = (ws.length + k, .ok (num.take k)) ∨
    ∃ e, nextNumberBytes (ws ++ num.take k) = (ws.length, .error e) ∧ canRetry e.type = true := by
  obtain ⟨c, t, rfl, hc⟩ := number_head h
  obtain ⟨j, rfl⟩ : ∃ j, k = j + 1 := ⟨k - 1, by omega⟩
  have hcw := numHead_ws hc
  have he := numberEnd_take h hk (by omega)
  rw [List.take_succ_cons] at he ⊢
  simp only [nextNumberBytes, peek_tok hw hcw, List.drop_left]
  rw [if_pos (by simpa using hc)]
  rcases he with e | ⟨i, e⟩
  · left; rw [e]; simp [List.take_take]
  · right; rw [e]; exact ⟨_, rfl, rfl⟩

theorem nextNumber_full {num : Bytes} (h : Number num) : nextNumberBytes num = (num.length, .ok num) := by
  have hs := numberEnd_spec h (t := []) (by intro c hc; simp at hc)
  rw [List.append_nil] at hs
  obtain ⟨c, t, rfl, hc⟩ := number_head h
  have hp := peek_tok Ws.nil (numHead_ws hc) t
  simp only [List.nil_append, List.length_nil] at hp
  simp only [nextNumberBytes, hp, List.drop_zero]
  rw [if_pos (by simpa using hc), hs]
  simp

end Jiter

/-- The retry loop on a number at the end of the input, from the start of the buffer. -/
theorem retryLoop_number_end {num : Bytes} (hnum : Number num) : ∀ (fuel : Nat) (s : RJ), s.b.nBytes ≤ s.b.buf.length →
    s.jlen = s.b.nBytes → s.jidx = 0 → s.b.rest 0 = num → num.length ≤ s.b.buf.length → s.b.reader.Clean →
    s.b.reader.size < fuel →
    ∃ s', retryLoop Jiter.nextNumberBytes true fuel s = (s', .ok num) ∧ s'.Sync ∧ s'.rest = [] := by
  intro fuel
  induction fuel with
  | zero => intro s _ _ _ _ _ _ h; omega
  | succ fuel ih =>
    intro s hok hjl hj hrest hfit hcl hfuel
    have hlen := congrArg List.length hrest
    rw [rest_length _ hok] at hlen
    have hv := valid_length hok
    have hjd : s.jdata = num.take s.b.nBytes := by
      rw [← hrest, Buffer.rest, List.drop_zero, List.take_append_of_le_length (by omega), List.take_of_length_le (by omega),
        jdata, hjl, hj]; rfl
    by_cases hall : s.b.nBytes = num.length
    · -- everything is there
      have hp : s.b.reader.pending = [] := List.length_eq_zero_iff.mp (by omega)
      have hrd := hcl.pending_nil hp
      rw [hall, List.take_length] at hjd
      have hrm : s.b.readMore = (s.b, .ok 0) := by
        rcases s.b.readMore_cases hok with ⟨_, e⟩ | ⟨_, e⟩ | ⟨q, r', _, hr, e⟩ | ⟨b', bs, e, hb, hv, hn, ho, hl', hp, hs, _⟩
        · exact e
        · exact e
        · rw [hrd] at hr; simp at hr
        · have : s.b.reader.size = 0 := by rw [hrd]; rfl
          omega
      simp only [retryLoop, call, hjd, nextNumber_full hnum, reallyOk, Bool.not_true, Bool.false_or]
      rw [if_neg (by simp; omega), hrm]
      refine ⟨_, rfl, ⟨hok, hjl, by simp only; omega⟩, ?_⟩
      show s.b.rest (s.jidx + num.length) = []
      rw [Buffer.rest, hp, List.append_nil, List.drop_eq_nil_of_le (by omega)]
    · -- read more
      have hread : ∃ b' n, s.b.readMore = (b', .ok n) ∧ n ≠ 0 ∧ b'.nBytes ≤ b'.buf.length ∧ b'.rest 0 = num ∧
          b'.buf.length = s.b.buf.length ∧ b'.reader.Clean ∧ b'.reader.size < fuel := by
        rcases s.b.readMore_cases hok with ⟨h1, e⟩ | ⟨h1, e⟩ | ⟨q, r', _, hr, e⟩ |
          ⟨b', bs, e, hb, hv', hn, ho, hl', hp, hs, hc', _⟩
        · omega
        · rw [h1] at hlen; simp [Reader.pending] at hlen; omega
        · rw [hr] at hcl; simp [Reader.Clean] at hcl
        · refine ⟨b', _, e, by omega, ho, ?_, hl', hc' hcl, by omega⟩
          rw [← hrest, Buffer.rest, Buffer.rest, List.drop_zero, List.drop_zero, hv', hp, List.append_assoc]
      obtain ⟨b', n, hrm, hn0, ho, hr', hl', hc', hsz⟩ := hread
      have hnext := ih ({ s with b := b', jidx := s.jidx + (Jiter.nextNumberBytes s.jdata).1 } : RJ).refresh ho rfl rfl hr'
        (by show num.length ≤ b'.buf.length; omega) hc' hsz
      simp only [retryLoop, call]
      cases hres : Jiter.nextNumberBytes s.jdata with
      | mk m r =>
        have hcase : (∃ v, r = .ok v ∧ m = s.b.nBytes) ∨ ∃ e, r = .error e ∧ canRetry e.type = true := by
          by_cases h0 : s.b.nBytes = 0
          · rw [hjd, h0] at hres
            right
            simp only [List.take_zero, Jiter.nextNumberBytes, peek_ws Ws.nil, Prod.mk.injEq] at hres
            exact ⟨_, hres.2.symm, rfl⟩
          · have := nextNumber_take hnum Ws.nil (k := s.b.nBytes) (by omega) (by omega)
            rw [List.nil_append, ← hjd, hres] at this
            rcases this with e | ⟨e, e1, e2⟩
            · simp only [Prod.mk.injEq, List.length_nil, Nat.zero_add] at e
              exact .inl ⟨_, e.2, e.1⟩
            · simp only [Prod.mk.injEq] at e1
              exact .inr ⟨e, e1.2, e2⟩
        rw [hres] at hnext
        rcases hcase with ⟨v, rfl, rfl⟩ | ⟨e, rfl, he⟩
        · simp only [reallyOk, Bool.not_true, Bool.false_or]
          rw [if_neg (by simp [hj]), hrm]
          simp only
          rw [if_neg hn0]
          exact hnext
        · simp only [he, Bool.not_true]
          rw [if_neg (by simp), hrm]
          simp only
          rw [if_neg hn0]
          exact hnext

/-- `next_number_bytes` on a number at the end of the input, unless the complete number is at the very start of the
buffer. -/
theorem RJ.nextNumberBytes_end {s : RJ} {fuel : Nat} {ws num : Bytes} (h : s.Sync) (hcl : s.b.reader.Clean)
    (hf : s.b.reader.size + 2 ≤ fuel) (hr : s.rest = ws ++ num) (hw : Ws ws) (hnum : Number num)
    (hfit : num.length ≤ s.b.buf.length) (hpos : 0 < s.jidx ∨ ws ≠ [] ∨ s.b.nBytes < num.length) :
    ∃ s', s.nextNumberBytes fuel = (s', .ok num) ∧ s'.Sync ∧ s'.rest = [] := by
  have hlen0 := number_length_pos hnum
  obtain ⟨c, t, hct, hcc⟩ := number_head hnum
  have hcw : isAsciiWs c = false := by
    rcases hcc with rfl | hc
    · decide
    · rw [isDigit_iff] at hc
      cases hi : isAsciiWs c with
      | false => rfl
      | true =>
        simp only [isAsciiWs, Bool.or_eq_true, beq_iff_eq] at hi
        rcases hi with (((rfl | rfl) | rfl) | rfl) | rfl <;> simp [Digit] at hc
  have hnorm : norm none s.rest = num := by rw [hr, hct]; exact norm_none hw hcw t
  have hre := rest_eq h
  have hjlen := jdata_length h
  -- the first attempt is never accepted
  have hfirst : (∃ e, (Jiter.nextNumberBytes s.jdata).2 = .error e) ∨
      (∃ v, (Jiter.nextNumberBytes s.jdata).2 = .ok v ∧ s.jidx + (Jiter.nextNumberBytes s.jdata).1 = s.b.nBytes) := by
    have hpre : s.jdata = (ws ++ num).take s.jdata.length := by rw [← hr, hre, List.take_left]
    by_cases hk : s.jdata.length ≤ ws.length
    · left
      rw [List.take_append_of_le_length hk] at hpre
      have hw' : Ws s.jdata := by rw [hpre]; exact fun c hc => hw c (List.mem_of_mem_take hc)
      exact ⟨⟨.json .eofWhileParsingValue, s.jdata.length⟩, by simp only [Jiter.nextNumberBytes, peek_ws hw']⟩
    · rw [List.take_append, List.take_of_length_le (by omega)] at hpre
      have hle : s.jdata.length - ws.length ≤ num.length := by
        have := congrArg List.length (hr.symm.trans hre)
        simp only [List.length_append] at this; omega
      rcases nextNumber_take hnum hw hle (by omega) with e | ⟨e, e1, _⟩
      · right
        rw [← hpre] at e
        rw [e]
        exact ⟨_, rfl, by simp only; omega⟩
      · left
        rw [← hpre] at e1
        rw [e1]; exact ⟨_, rfl⟩
  have hretry : ∃ s', (match ({ s with jidx := s.jidx + (Jiter.nextNumberBytes s.jdata).1 } : RJ).skipSpacesFeeding fuel s.jidx none with
      | (s2, .ok ()) => retryLoop Jiter.nextNumberBytes true fuel s2
      | (s2, .err e) => (s2, .err e)
      | (s2, .panic) => (s2, .panic)
      | (s2, .diverge) => (s2, .diverge)) = (s', .ok num) ∧ s'.Sync ∧ s'.rest = [] := by
    rcases skipSpacesFeeding_spec s { s with jidx := s.jidx + (Jiter.nextNumberBytes s.jdata).1 } none fuel h rfl rfl
      (by omega) (by simp) hf with ⟨s2, e, hfed, hjl, hp⟩ | ⟨s2, kd, x, e, hcl'⟩
    · rw [e]
      simp only
      have hfit2 : num.length ≤ s2.b.buf.length := by rw [hfed.len]; exact hfit
      have hrest2 : s2.b.rest 0 = num := by rw [hfed.rest, hnorm]
      have hsz := hfed.size
      rcases hp with h0 | ⟨h1, h2, h3, h4⟩
      · exact retryLoop_number_end hnum fuel s2 hfed.ok hjl h0 hrest2 hfit2 (hfed.clean hcl) (by omega)
      · -- nothing was changed: the jiter is at the start or at the end of the buffer
        have hws : ws = [] := by
          have := congrArg List.length (hnorm.symm.trans h3)
          rw [hr, List.length_append] at this
          exact List.length_eq_zero_iff.mp (by omega)
        have hshort : s.b.nBytes < num.length := by
          rcases hpos with hp | hp | hp
          · omega
          · exact absurd hws hp
          · exact hp
        have hnb : s2.b.nBytes = s.b.nBytes := by
          have := congrArg List.length h4
          rwa [valid_length hfed.ok, valid_length h.ok] at this
        have hj : s2.jidx = 0 ∨ s2.jidx = s2.b.nBytes := by
          rw [h1]
          simp only [h2, Nat.zero_add]
          have hjd : s.jdata = num.take s.b.nBytes := by
            have e1 : s.jdata = s.b.valid := by rw [jdata_eq h, h2, List.drop_zero]
            have e2 : s.jdata ++ s.b.reader.pending = num := by rw [← hre, hr, hws, List.nil_append]
            rw [← e2, List.take_append_of_le_length (by rw [e1, valid_length h.ok]; omega),
              List.take_of_length_le (by rw [e1, valid_length h.ok]; omega)]
          by_cases h0 : s.b.nBytes = 0
          · left; rw [hjd, h0]; rfl
          · rcases nextNumber_take hnum Ws.nil (k := s.b.nBytes) (by omega) (by omega) with e | ⟨e, e1, _⟩
            · right
              rw [List.nil_append, ← hjd] at e
              rw [e]; simp [hnb]
            · left
              rw [List.nil_append, ← hjd] at e1
              rw [e1]; rfl
        rcases hj with hj | hj
        · exact retryLoop_number_end hnum fuel s2 hfed.ok hjl hj hrest2 hfit2 (hfed.clean hcl) (by omega)
        · -- at the end: one failing call, then a read
          obtain ⟨fuel, rfl⟩ : ∃ m, fuel = m + 1 := ⟨fuel - 1, by omega⟩
          have hjd : s2.jdata = [] := by
            rw [jdata, hjl, hj]
            exact List.drop_eq_nil_of_le (by simp; omega)
          have hlen := congrArg List.length hrest2
          rw [rest_length _ hfed.ok] at hlen
          rcases s2.b.readMore_cases hfed.ok with ⟨h1, e⟩ | ⟨h1, e⟩ | ⟨q, r', _, hr', e⟩ |
            ⟨b', bs, e, hb, hv', hn, ho, hl', hp', hs, hc', _⟩
          · omega
          · rw [h1] at hlen; simp [Reader.pending] at hlen; omega
          · have := hfed.clean hcl
            rw [hr'] at this; simp [Reader.Clean] at this
          · simp only [retryLoop, call, hjd, Jiter.nextNumberBytes, peek_ws Ws.nil, canRetry, allowedIfPartial, e]
            simp only [Bool.not_true, Bool.false_eq_true, if_false]
            rw [if_neg (by omega)]
            exact retryLoop_number_end hnum fuel _ ho rfl rfl
              (by show b'.rest 0 = num; rw [← hrest2, Buffer.rest, Buffer.rest, List.drop_zero, List.drop_zero, hv', hp', List.append_assoc])
              (by show num.length ≤ b'.buf.length; omega) (hc' (hfed.clean hcl)) (by show b'.reader.size < fuel; omega)
    · exact absurd hcl hcl'
  simp only [RJ.nextNumberBytes, loopUntilSuccess, call]
  rcases hres : Jiter.nextNumberBytes s.jdata with ⟨m, r⟩
  rw [hres] at hfirst hretry
  rcases hfirst with ⟨e, he⟩ | ⟨v, hv, hm⟩
  · simp only at he; subst he
    exact hretry
  · simp only at hv hm; subst hv
    simp only [reallyOk, Bool.not_true, Bool.false_or]
    rw [if_neg (by simp; omega)]
    exact hretry

end Verif.RJiter
