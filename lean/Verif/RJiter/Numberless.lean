import Verif.RJiter.Words
import Verif.RJiter.PropsValue

/-!
# `next_number_bytes` on input that begins like a number but is none
-/

namespace Verif.RJiter

open Buffer RJ Jiter

/-- The input begins like a number, and every number that it begins with goes on: the next byte is a digit or another one that
continues a number, and so nothing that the input begins with is a number and is over. Numbers are shorter than `L`. -/
def Numberless (L : Nat) (r : Bytes) : Prop :=
  (∃ c t, r = c :: t ∧ (c = 45 ∨ Digit c)) ∧
  ∀ v t, r = v ++ t → Number v → v.length < L ∧ ∃ c b, t = c :: b ∧ (Digit c ∨ ∃ y, Number (v ++ c :: y))

theorem nextNumber_stillWs : StillWs Jiter.nextNumberBytes := by
  refine Next.stillWs nextNumber_next fun c g hg => ?_
  by_cases hc : c = 45 ∨ isDigit c = true
  · rw [if_pos hc] at hg; injection hg with hg; subst hg; exact numberTok_still
  · rw [if_neg hc] at hg; cases hg

theorem nextNumber_stillNil : StillNil Jiter.nextNumberBytes := Next.stillNil nextNumber_next

/-- The errors of the retry loop leave the position in front of the number, if there is always more to read behind a number that
is at the end of the buffer. -/
theorem RJ.retryLoop_number (s0 : RJ) (hcl : s0.b.reader.Clean)
    (hno : ∀ k v, Jiter.nextNumberBytes ((norm none s0.rest).take k) = (k, .ok v) → k < (norm none s0.rest).length ∧ k < s0.b.buf.length) :
    ∀ (fuel : Nat) (s : RJ), Fed none s0 s.b → s.jlen = s.b.nBytes →
      (s.jidx = 0 ∨ s.jidx = s.b.nBytes ∧ s.b.nBytes < (norm none s0.rest).length ∧ s.b.nBytes < s0.b.buf.length) →
      ∀ s' er, retryLoop Jiter.nextNumberBytes true fuel s = (s', .err er) →
      s0.Moved s' (s0.rest.length - (norm none s0.rest).length) := by
  intro fuel
  induction fuel with
  | zero => intro s _ _ _ s' er h; simp [retryLoop] at h
  | succ fuel ih =>
    intro s hfed hl hj s' er h
    have hrl := congrArg List.length hfed.rest
    rw [rest_length _ hfed.ok] at hrl
    have hlen := hfed.len
    have hfr := hfed.readMore
    have more : ∀ {γ : Type} (g : Buffer × Res Nat → γ), s.b.nBytes < (norm none s0.rest).length → s.b.nBytes < s0.b.buf.length →
        ∃ b' n, s.b.readMore = (b', .ok n) ∧ n ≠ 0 ∧ Fed none s0 b' := by
      intro γ g hp hb
      rcases s.b.readMore_cases hfed.ok with ⟨hno, e1⟩ | ⟨hno, e1⟩ | ⟨q, r', hlt, hr, e1⟩ |
        ⟨b', bs, e1, hb, hv, hnb, ho, hl', hp, hs', hcl, _⟩
      · omega
      · rw [hno] at hrl; simp [Reader.pending] at hrl; omega
      · have := hfed.clean hcl
        rw [hr] at this
        simp [Reader.Clean] at this
      · rw [e1] at hfr
        exact ⟨_, _, e1, by omega, hfr⟩
    simp only [retryLoop, call] at h
    rcases hj with h0 | ⟨h0, h1, h2⟩
    · have hjd : s.jdata = (norm none s0.rest).take s.b.nBytes := by
        rw [← hfed.rest, ← valid_take_rest hfed.ok, jdata, hl, h0]; simp [Buffer.valid]
      rcases hfv : Jiter.nextNumberBytes s.jdata with ⟨n, e | w⟩
      · rw [hfv] at h
        have hn : n = 0 := by
          rw [hjd] at hfv
          exact nextNumber_stillWs.head nextNumber_stillNil (norm_none_head _) hfv
        subst hn
        have hs0 : ({ s with jidx := s.jidx + 0 } : RJ) = s := by cases s; rfl
        rw [hs0] at h
        simp only at h
        have hmv : ∀ b', Fed none s0 b' → b'.nBytes = s.b.nBytes →
            s0.Moved { s with b := b' } (s0.rest.length - (norm none s0.rest).length) := by
          intro b' hf' hb
          have := Moved.ofFed (s' := { s with b := b' }) hf' (by simp [hl, hb]) (by simp [h0]) (.inr (by intro t ht; cases ht))
          simpa [h0] using this
        split at h
        · simp only [Prod.mk.injEq] at h
          rw [← h.1]; exact hmv _ hfed rfl
        · rcases s.b.readMore_cases hfed.ok with ⟨hno, e1⟩ | ⟨hno, e1⟩ | ⟨q, r', hlt, hr, e1⟩ |
            ⟨b', bs, e1, hb, hv, hnb, ho, hl', hp, hs', hcl, _⟩
          · rw [e1] at h hfr
            simp only [if_true, Prod.mk.injEq] at h
            rw [← h.1]; exact hmv _ hfr rfl
          · rw [e1] at h hfr
            simp only [if_true, Prod.mk.injEq] at h
            rw [← h.1]; exact hmv _ hfr rfl
          · rw [e1] at h hfr
            simp only [Prod.mk.injEq] at h
            rw [← h.1]; exact hmv _ hfr rfl
          · rw [e1] at h hfr
            simp only [show bs.length ≠ 0 by omega, if_false] at h
            exact ih _ hfr rfl (.inl rfl) s' er h
      · rw [hfv] at h
        simp only at h
        split at h
        · simp at h
        · rename_i hro
          simp only [reallyOk, Bool.not_true, Bool.false_or, decide_eq_true_eq, h0] at hro
          have hb := (nextNumber_jsound.bound _ _ _ hfv).1
          have hjl : s.jdata.length = s.b.nBytes := by
            have := hfed.ok
            simp [jdata, hl, h0]; omega
          have hn : n = s.b.nBytes := by omega
          rw [hjd, hn] at hfv
          obtain ⟨h1, h2⟩ := hno _ _ hfv
          obtain ⟨b', k, e1, hk, hf'⟩ := more id h1 h2
          rw [e1] at h
          simp only [if_neg hk] at h
          exact ih _ hf' rfl (.inl rfl) s' er h
    · have hjd : s.jdata = [] := by simp [jdata, hl, h0]
      have hnil : Jiter.nextNumberBytes [] = (0, .error ⟨.json .eofWhileParsingValue, 0⟩) := rfl
      obtain ⟨b', k, e1, hk, hf'⟩ := more id h1 h2
      rw [hjd, hnil] at h
      simp only at h
      rw [if_neg (by decide), e1] at h
      simp only [if_neg hk] at h
      exact ih _ hf' rfl (.inl rfl) s' er h

/-- Behind the number there is no digit. -/
def Over (d : Bytes) (i n : Nat) : Prop := i ≤ n ∧ ∀ c, (d.drop (n - i)).head? = some c → isDigit c = false

theorem Over.drop {d : Bytes} {i j n : Nat} (h : Over (d.drop j) (i + j) n) : Over d i n := by
  refine ⟨by have := h.1; omega, fun c hc => h.2 c ?_⟩
  have := h.1
  rw [List.drop_drop, show j + (n - (i + j)) = n - i by omega]
  exact hc

theorem digits_over (d : Bytes) (i : Nat) : Over d i (i + digits d) := by
  refine ⟨by omega, fun c hc => ?_⟩
  rw [show i + digits d - i = digits d by omega] at hc
  induction d with
  | nil => simp [digits] at hc
  | cons x d ih =>
    unfold digits at hc ih
    rw [List.takeWhile_cons] at hc
    split at hc
    · simp only [List.length_cons, List.drop_succ_cons] at hc
      exact ih hc
    · rename_i hx
      simp only [List.length_nil, List.drop_zero, List.head?_cons, Option.some.injEq] at hc
      subst hc
      simpa using hx

theorem exponent_over {d : Bytes} {i n : Nat} (h : exponent d i = .ok n) : Over d i n := by
  simp only [exponent] at h
  split at h
  · cases h
  · injection h with h
    subst h
    exact Over.drop (digits_over _ _)

theorem decimal_over {d : Bytes} {i n : Nat} (h : decimal d i = .ok n) : Over d i n := by
  simp only [decimal] at h
  split at h
  · cases h
  · split at h
    · rename_i c t hd
      split at h
      · refine Over.drop (j := digits d + 1) ?_
        rw [show d.drop (digits d + 1) = t by rw [← List.drop_drop, hd]; rfl]
        exact exponent_over h
      · injection h with h
        subst h
        exact digits_over _ _
    · injection h with h
      subst h
      exact digits_over _ _

theorem numberTail_over {d : Bytes} {i n : Nat} (h : numberTail d i = .ok n) (hd : ∀ c, d.head? = some c → isDigit c = false) : Over d i n := by
  have stay : i = n → Over d i n := by
    rintro rfl
    exact ⟨Nat.le_refl _, fun c hc => hd c (by simpa using hc)⟩
  unfold numberTail at h
  split at h
  · rename_i c t
    split at h
    · exact Over.drop (j := 1) (decimal_over h)
    · split at h
      · exact Over.drop (j := 1) (exponent_over h)
      · injection h with h; exact stay h
  · injection h with h; exact stay h

theorem numBody_over {d : Bytes} {i n : Nat} (h : numBody d i = .ok n) : Over d i n := by
  unfold numBody at h
  split at h
  · cases h
  · split at h
    · rename_i t
      split at h
      · rename_i c t'
        split at h
        · cases h
        · rename_i hc
          refine Over.drop (j := 1) (numberTail_over h ?_)
          intro x hx
          have hx : some c = some x := hx
          injection hx with hx
          subst hx
          simpa using hc
      · injection h with h
        subst h
        exact ⟨by omega, by simp⟩
    · refine Over.drop (j := digits d) (numberTail_over h ?_)
      have := (digits_over d 0).2
      simpa using this

theorem numberEnd_over {d : Bytes} {n : Nat} (h : numberEnd d = .ok n) : ∀ c, (d.drop n).head? = some c → isDigit c = false := by
  rw [numberEnd_eq] at h
  have := (Over.drop (i := 0) (by rw [Nat.zero_add]; exact numBody_over h)).2
  exact this

/-- Behind an accepted number there is no digit. -/
theorem nextNumber_over {s s' : RJ} {fuel : Nat} (h : s.Sync) (hl : 0 < s.b.buf.length) (hf : enoughFuel s fuel) {v : Bytes}
    (hok : s.nextNumberBytes fuel = (s', .ok v)) {b : Bytes} {c : Byte} (hr : s.rest = v ++ c :: b)
    (hws : ∀ x, s.rest.head? = some x → isAsciiWs x = false) (hv : v.length < s.b.buf.length) : ¬ isDigit c = true := by
  have hsel : ∀ (c : Byte) g, (if c = 45 ∨ isDigit c = true then some numberTok else none) = some g → g = numberTok := by
    intro c g hg
    by_cases hc : c = 45 ∨ isDigit c = true
    · rw [if_pos hc] at hg; injection hg with hg; exact hg.symm
    · rw [if_neg hc] at hg; cases hg
  obtain ⟨ws', c', t, g, d, m, h1, h2, h3, ⟨x, hd⟩, h5, h6, h7⟩ := next_value nextNumber_next
    (fun c g hg => by obtain rfl := hsel c g hg; exact numberTok_jsound)
    (fun c g hg => by obtain rfl := hsel c g hg; exact numberTok_still) h hl hf hok
  obtain rfl := hsel c' g h3
  have hw0 : ws' = [] := by
    cases ws' with
    | nil => rfl
    | cons x l =>
      have := hws x (by rw [h1]; rfl)
      rcases h2 x (by simp) with (rfl | rfl | rfl | rfl) | rfl <;> simp [isAsciiWs] at this
  subst hw0
  have hb := (numberTok_jsound.bound _ _ _ h5).1
  simp only [numberTok] at h5
  cases hn : numberEnd d with
  | error e => rw [hn] at h5; simp [jerr] at h5
  | ok m' =>
    rw [hn] at h5
    simp only [Prod.mk.injEq, Except.ok.injEq] at h5
    obtain ⟨rfl, rfl⟩ := h5
    have hlen : (d.take m').length = m' := by rw [List.length_take]; omega
    have hdx : d ++ x = d.take m' ++ c :: b := by rw [← hr, h1, hd]; rfl
    have hdrop := congrArg (List.drop m') hdx
    rw [List.drop_append_of_le_length hb, List.drop_left' hlen] at hdrop
    by_cases hlt : m' < d.length
    · have := numberEnd_over hn c (by
        cases hx : d.drop m' with
        | nil => have := congrArg List.length hx; rw [List.length_drop, List.length_nil] at this; omega
        | cons y l => rw [hx] at hdrop; injection hdrop with hy _; rw [hy]; rfl)
      simp [this]
    · rcases h7 rfl with h8 | h8 | h8
      · omega
      · rw [h8] at hd
        have : x = [] := by simpa using hd
        rw [this, List.drop_eq_nil_of_le (by omega)] at hdrop
        cases hdrop
      · omega

variable {s s' : RJ} {fuel : Nat}

/-- `next_number_bytes` in front of something that begins like a number and is none: an error, and the position is kept. -/
theorem RJ.nextNumber_numberless {L : Nat} (h : s.Sync) (hl : 8 ≤ s.b.buf.length) (hL : L ≤ s.b.buf.length) (hf : enoughFuel s fuel)
    (hcl : s.b.reader.Clean) (hr : Numberless L s.rest) : ∃ s' e, s.nextNumberBytes fuel = (s', .err e) ∧ s.Moved s' 0 := by
  obtain ⟨⟨c, t, hc, hd⟩, hno⟩ := hr
  have hca : isAsciiWs c = false := by
    rcases hd with rfl | hd
    · decide
    · cases hx : isAsciiWs c with
      | false => rfl
      | true =>
        unfold Digit at hd
        simp only [isAsciiWs, Bool.or_eq_true, beq_iff_eq] at hx
        exfalso
        rcases hx with (((rfl | rfl) | rfl) | rfl) | rfl <;> simp at hd
  have hnorm : norm none s.rest = s.rest := by rw [hc]; simpa using norm_none Ws.nil hca t
  unfold enoughFuel at hf
  obtain ⟨s', r, e, hx⟩ := loopUntilSuccess_sound (eager := true) nextNumber_jsound s fuel h (by omega) (by simp) (by omega)
  have e' : s.nextNumberBytes fuel = (s', r) := e
  rcases hx with ⟨v, n, rfl, _⟩ | ⟨er, rfl, hio⟩
  · exfalso
    obtain ⟨ws, t', h1, h2, h3, h4, h5⟩ := C44_next_number s fuel h (by omega) (by unfold enoughFuel; omega) s' v e'
    have hws : ws = [] := by
      cases ws with
      | nil => rfl
      | cons x ws =>
        rw [hc] at h1
        injection h1 with h1 _
        subst h1
        have := h2 c (by simp)
        rcases this with (rfl | rfl | rfl | rfl) | rfl <;> simp [isAsciiWs] at hca
    subst hws
    obtain ⟨g1, c', b, g2, g3⟩ := hno v t' (by simpa using h1) h3
    rcases h5 with h5 | h5 | h5
    · rcases g3 with g3 | ⟨y, g3⟩
      · exact nextNumber_over h (by omega) (by unfold enoughFuel; omega) e' (by rw [h1, g2]; rfl)
          (by rw [hc]; intro x hx; injection hx with hx; subst hx; exact hca) (by omega) ((isDigit_iff c').2 g3)
      · exact h5 c' b y g2 g3
    · rw [h5] at g2; cases g2
    · omega
  · refine ⟨s', er, e', ?_⟩
    have hno' : ∀ k v, Jiter.nextNumberBytes ((norm none s.rest).take k) = (k, .ok v) → k < (norm none s.rest).length ∧ k < s.b.buf.length := by
      intro k v hk
      rw [hnorm] at hk ⊢
      have hb := (nextNumber_jsound.bound _ _ _ hk).1
      have hkl : k ≤ s.rest.length := by rw [List.length_take] at hb; omega
      have hlen : (s.rest.take k).length = k := by rw [List.length_take]; omega
      have hnum : Number (s.rest.take k) := by
        cases k with
        | zero => simp only [List.take_zero] at hk; simp [show Jiter.nextNumberBytes [] = (0, .error ⟨.json .eofWhileParsingValue, 0⟩) from rfl] at hk
        | succ k =>
          rw [hc, List.take_succ_cons] at hk ⊢
          have hp : Jiter.peek (c :: t.take k) = (0, .ok c) := by simpa using peek_tok Ws.nil (isWs_of_not_ascii hca) (t.take k)
          simp only [Jiter.nextNumberBytes, hp] at hk
          split at hk
          · rename_i hx
            simp only [List.drop_zero] at hk
            cases hn : numberEnd (c :: t.take k) with
            | error e => rw [hn] at hk; simp [jerr] at hk
            | ok m =>
              rw [hn] at hk
              simp only [Prod.mk.injEq, Nat.zero_add] at hk
              have := numberEnd_ok hn
              rw [hk.1, List.take_of_length_le (by rw [hc, List.take_succ_cons] at hlen; omega)] at this
              exact this
          · simp at hk
      obtain ⟨g1, c', b, g2, g3⟩ := hno (s.rest.take k) (s.rest.drop k) (by rw [List.take_append_drop]) hnum
      have := congrArg List.length g2
      rw [List.length_drop, List.length_cons] at this
      omega
    have hz : s.rest.length - (norm none s.rest).length = 0 := by rw [hnorm]; omega
    simp only [loopUntilSuccess, call] at e
    have hretry : ∀ j, (j = 0 ∨ s.jidx = 0 → j = s.b.nBytes ∧ s.b.nBytes < (norm none s.rest).length ∧ s.b.nBytes < s.b.buf.length ∨ j = 0) →
        (match ({ s with jidx := j } : RJ).skipSpacesFeeding fuel s.jidx none with
          | (s2, .ok ()) => retryLoop Jiter.nextNumberBytes true fuel s2
          | (s2, .err e) => (s2, .err e)
          | (s2, .panic) => (s2, .panic)
          | (s2, .diverge) => (s2, .diverge)) = (s', .err er) → s.Moved s' 0 := by
      intro j hj he
      rcases skipSpacesFeeding_spec s { s with jidx := j } none fuel h rfl rfl (by omega) (by simp) (by omega) with
        ⟨s2, e2, hfed, hjl, hpos⟩ | ⟨s2, kd, x, e2, hcl'⟩
      · rw [e2] at he
        have := RJ.retryLoop_number s hcl hno' fuel s2 hfed hjl (by
          rcases hpos with h0 | ⟨g1, g2, g3, g4⟩
          · exact .inl h0
          · simp only at g1
            have hb := congrArg List.length g4
            rw [valid_length hfed.ok, valid_length h.ok] at hb
            rcases hj (.inr g2) with ⟨k1, k2, k3⟩ | k1
            · exact .inr ⟨by omega, by omega, by omega⟩
            · exact .inl (by omega)) s' er he
        rw [hz] at this
        exact this
      · exact absurd hcl hcl'
    have hjd : s.jdata = s.rest.take s.jdata.length := by rw [rest_eq h, List.take_left]
    have hjl := jdata_length h
    rcases hfv : Jiter.nextNumberBytes s.jdata with ⟨n, e1 | w⟩
    · rw [hfv] at e
      have hn : n = 0 := by
        rw [hjd, ← hnorm] at hfv
        exact nextNumber_stillWs.head nextNumber_stillNil (norm_none_head _) hfv
      refine hretry _ (fun hx => ?_) e
      right; omega
    · rw [hfv] at e
      simp only at e
      split at e
      · simp at e
      · rename_i hro
        simp only [reallyOk, Bool.not_true, Bool.false_or, decide_eq_true_eq] at hro
        have hb := (nextNumber_jsound.bound _ _ _ hfv).1
        refine hretry _ (fun hx => ?_) e
        have h0 : s.jidx = 0 := by omega
        left
        have hn : n = s.jdata.length := by omega
        rw [hn, hjd] at hfv
        have := hno' s.jdata.length w (by rw [hnorm]; simpa [← hjd] using hfv)
        omega

end Verif.RJiter
