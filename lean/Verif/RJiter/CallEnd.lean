import Verif.RJiter.Calls
import Verif.RJiter.NumEnd

/-!
# The wrappers at the end of the input

A function that may stop too early, on a value that is the last thing of the input.
-/

namespace Verif.RJiter

open Buffer RJ Jiter

/-- `f` reads all of `r`, and asks for more on every shorter prefix, there and (for a failed attempt) behind it. -/
structure Last {α : Type} (f : JFn α) (r : Bytes) (v : α) : Prop where
  pos : 0 < r.length
  full : f r = (r.length, .ok v)
  short : ∀ k, k < r.length → Retry true k (f (r.take k))

theorem retryLoop_last {α : Type} {f : JFn α} {r : Bytes} {v : α} (hl : Last f r v) : ∀ (fuel : Nat) (s : RJ),
    s.b.nBytes ≤ s.b.buf.length → s.jlen = s.b.nBytes →
    (s.jidx = 0 ∨ (s.b.nBytes < r.length ∧ Retry true (s.b.nBytes - s.jidx) (f s.jdata))) →
    s.b.rest 0 = r → r.length ≤ s.b.buf.length → s.b.reader.Clean → s.b.reader.size < fuel →
    ∃ s', retryLoop f true fuel s = (s', .ok v) ∧ s'.Sync ∧ s'.rest = [] := by
  intro fuel
  induction fuel with
  | zero => intro s _ _ _ _ _ _ h; omega
  | succ fuel ih =>
    intro s hok hjl hj hrest hfit hcl hfuel
    have hlen := congrArg List.length hrest
    rw [rest_length _ hok] at hlen
    have hv := valid_length hok
    have hval : s.b.valid = r.take s.b.nBytes := by
      rw [← hrest, Buffer.rest, List.drop_zero, List.take_append_of_le_length (by omega), List.take_of_length_le (by omega)]
    by_cases hall : s.b.nBytes = r.length
    · -- everything is there
      have hj0 : s.jidx = 0 := by
        rcases hj with h | h
        · exact h
        · omega
      have hjd : s.jdata = r := by
        rw [hall, List.take_length] at hval
        rw [← hval, jdata, hjl, hj0]; rfl
      have hp : s.b.reader.pending = [] := List.length_eq_zero_iff.mp (by omega)
      have hrd := hcl.pending_nil hp
      have hrm : s.b.readMore = (s.b, .ok 0) := by
        rcases s.b.readMore_cases hok with ⟨_, e⟩ | ⟨_, e⟩ | ⟨q, r', _, hr, e⟩ | ⟨b', bs, e, hb, hv, hn, ho, hl', hp, hs, _⟩
        · exact e
        · exact e
        · rw [hrd] at hr; simp at hr
        · have : s.b.reader.size = 0 := by rw [hrd]; rfl
          omega
      simp only [retryLoop, call, hjd, hl.full, reallyOk, Bool.not_true, Bool.false_or]
      rw [if_neg (by simp; omega), hrm]
      refine ⟨_, rfl, ⟨hok, hjl, by simp only; omega⟩, ?_⟩
      show s.b.rest (s.jidx + r.length) = []
      rw [Buffer.rest, hp, List.append_nil, List.drop_eq_nil_of_le (by omega)]
    · -- read more
      have hR : Retry true (s.b.nBytes - s.jidx) (f s.jdata) := by
        rcases hj with h0 | h0
        · have hjd : s.jdata = r.take s.b.nBytes := by rw [← hval, jdata, hjl, h0]; rfl
          rw [hjd, h0]; exact hl.short _ (by omega)
        · exact h0.2
      have hread : ∃ b' n, s.b.readMore = (b', .ok n) ∧ n ≠ 0 ∧ b'.nBytes ≤ b'.buf.length ∧ b'.rest 0 = r ∧
          b'.buf.length = s.b.buf.length ∧ b'.reader.Clean ∧ b'.reader.size < fuel := by
        rcases s.b.readMore_cases hok with ⟨h1, e⟩ | ⟨h1, e⟩ | ⟨q, r', _, hr, e⟩ |
          ⟨b', bs, e, hb, hv', hn, ho, hl', hp, hs, hc', _⟩
        · omega
        · rw [h1] at hlen; simp [Reader.pending] at hlen; omega
        · rw [hr] at hcl; simp [Reader.Clean] at hcl
        · refine ⟨b', _, e, by omega, ho, ?_, hl', hc' hcl, by omega⟩
          rw [← hrest, Buffer.rest, Buffer.rest, List.drop_zero, List.drop_zero, hv', hp, List.append_assoc]
      obtain ⟨b', n, hrm, hn0, ho, hr', hl', hc', hsz⟩ := hread
      have hnext := ih ({ s with b := b', jidx := s.jidx + (f s.jdata).1 } : RJ).refresh ho rfl (.inl rfl) hr'
        (by show r.length ≤ b'.buf.length; omega) hc' hsz
      simp only [retryLoop, call]
      rcases hres : f s.jdata with ⟨m, x⟩
      rw [hres] at hR hnext
      cases x with
      | ok w =>
        simp only [Retry] at hR
        simp only [reallyOk, Bool.not_true, Bool.false_or]
        rw [if_neg (by simp; omega), hrm]
        simp only
        rw [if_neg hn0]
        exact hnext
      | error e =>
        simp only [Retry] at hR
        simp only [hR, Bool.not_true]
        rw [if_neg (by simp), hrm]
        simp only
        rw [if_neg hn0]
        exact hnext

/-- A wrapper on the last value of the input, unless the complete value is at the very start of the buffer. -/
theorem RJ.call_last {α : Type} {f : JFn α} {s : RJ} {fuel : Nat} {ws r : Bytes} {v : α} (h : s.Sync) (hcl : s.b.reader.Clean)
    (hf : s.b.reader.size + 2 ≤ fuel) (hr : s.rest = ws ++ r) (hnorm : norm none s.rest = r) (hl : Last f r v)
    (hfirst : ∀ k, k ≤ s.rest.length → ∀ n w, f (s.rest.take k) = (n, .ok w) → k ≤ n)
    (hagain : s.jidx = 0 → ws = [] → s.b.nBytes < r.length → Again f true r s.b.nBytes)
    (hfit : r.length ≤ s.b.buf.length) (hpos : 0 < s.jidx ∨ ws ≠ [] ∨ s.b.nBytes < r.length) :
    ∃ s', s.loopUntilSuccess fuel f none true = (s', .ok v) ∧ s'.Sync ∧ s'.rest = [] := by
  have hlen0 := hl.pos
  have hre := rest_eq h
  have hjlen := jdata_length h
  have hpre : s.jdata = s.rest.take s.jdata.length := by rw [hre, List.take_left]
  have hle : s.jdata.length ≤ s.rest.length := by rw [hre, List.length_append]; omega
  have hretry : ∃ s', (match ({ s with jidx := s.jidx + (f s.jdata).1 } : RJ).skipSpacesFeeding fuel s.jidx none with
      | (s2, .ok ()) => retryLoop f true fuel s2
      | (s2, .err e) => (s2, .err e)
      | (s2, .panic) => (s2, .panic)
      | (s2, .diverge) => (s2, .diverge)) = (s', .ok v) ∧ s'.Sync ∧ s'.rest = [] := by
    rcases skipSpacesFeeding_spec s { s with jidx := s.jidx + (f s.jdata).1 } none fuel h rfl rfl
      (by omega) (by simp) hf with ⟨s2, e, hfed, hjl, hp⟩ | ⟨s2, kd, x, e, hcl'⟩
    · rw [e]
      simp only
      have hsz := hfed.size
      refine retryLoop_last hl fuel s2 hfed.ok hjl ?_ (by rw [hfed.rest, hnorm]) (by rw [hfed.len]; exact hfit) (hfed.clean hcl)
        (by omega)
      rcases hp with h0 | ⟨h1, h2, h3, h4⟩
      · exact .inl h0
      · -- nothing was changed
        right
        have hws : ws = [] := by
          have := congrArg List.length (hnorm.symm.trans h3)
          rw [hr, List.length_append] at this
          exact List.length_eq_zero_iff.mp (by omega)
        have hshort : s.b.nBytes < r.length := by
          rcases hpos with hp | hp | hp
          · omega
          · exact absurd hws hp
          · exact hp
        have hnb : s2.b.nBytes = s.b.nBytes := by
          have := congrArg List.length h4
          rwa [valid_length hfed.ok, valid_length h.ok] at this
        refine ⟨by omega, ?_⟩
        have hjd : s.jdata = r.take s.b.nBytes := by
          rw [hr, hws, List.nil_append] at hpre
          rw [hpre, hjlen, h2, Nat.sub_zero]
        have hjd2 : s2.jdata = s.jdata.drop (f s.jdata).1 := by
          have e1 : s2.jdata = s2.b.valid.drop s2.jidx := by rw [jdata, hjl]; rfl
          have e2 : s.jdata = s.b.valid := by rw [jdata_eq h, h2]; rfl
          rw [e1, h4, h1, h2, Nat.zero_add]
          conv => rhs; rw [e2]
          rw [← e2]
        have ha := hagain h2 hws hshort
        unfold Again at ha
        rw [← hjd] at ha
        rw [hjd2, hnb, h1, h2, Nat.zero_add]
        exact ha
    · exact absurd hcl hcl'
  have hacc := hfirst s.jdata.length hle
  rw [← hpre] at hacc
  simp only [loopUntilSuccess, call]
  rcases hres : f s.jdata with ⟨m, x⟩
  rw [hres] at hretry
  cases x with
  | error e => exact hretry
  | ok w =>
    have := hacc m w hres
    simp only [reallyOk, Bool.not_true, Bool.false_or]
    rw [if_neg (by simp; omega)]
    exact hretry

/-- `f` reads `n` bytes of `r`, even if nothing follows, and asks for more if there are less. -/
structure Reads {α : Type} (f : JFn α) (r : Bytes) (n : Nat) (v : α) : Prop where
  fits : n ≤ r.length
  enough : ∀ k, n ≤ k → f (r.take k) = (n, .ok v)
  short : ∀ k, k < n → Retry true k (f (r.take k))

theorem Reads.good {α : Type} {f : JFn α} {r : Bytes} {n : Nat} {v : α} (h : Reads f r n v) (hn : n < r.length) :
    Good f true r n v (n + 1) := by
  refine ⟨by omega, by omega, fun _ => by omega, fun k hk _ => h.enough k (by omega), ?_⟩
  intro k hk
  by_cases h1 : k < n
  · exact h.short k h1
  · rw [h.enough k (by omega)]; exact ⟨rfl, by omega⟩

theorem Reads.nil {α : Type} {f : JFn α} {r : Bytes} {n : Nat} {v : α} (h : Reads f r n v) (hn : 0 < n) : Retry true 0 (f []) := by
  simpa using h.short 0 hn

/-- The wrapper on a value that is followed by something. -/
theorem Reads.call {α : Type} {f : JFn α} {s : RJ} {fuel : Nat} {ws r : Bytes} {n : Nat} {v : α} (h : s.Sync)
    (hcl : s.b.reader.Clean) (hf : s.b.reader.size + 2 ≤ fuel) (hr : s.rest = ws ++ r) (hnorm : norm none s.rest = r)
    (h1 : Reads f (ws ++ r) (ws.length + n) v) (h0 : Reads f r n v) (hn : 0 < n) (hmore : n < r.length)
    (hbuf : n + 1 ≤ s.b.buf.length)
    (hagain : s.jidx = 0 → ws = [] → s.b.nBytes < n → Again f true r s.b.nBytes) :
    ∃ s', s.loopUntilSuccess fuel f none true = (s', .ok v) ∧ s.Moved s' (ws.length + n) := by
  refine call_complete (p := ws.length) h hcl hf hnorm (by rw [hr, List.length_append])
    (by rw [hr]; exact h1.good (by rw [List.length_append]; omega)) (h0.good hmore) (by simp) (by omega) (by simp) hbuf ?_
  intro hj hp hk
  by_cases hkn : s.b.nBytes < n
  · exact hagain hj (List.length_eq_zero_iff.mp hp) hkn
  · unfold Again
    rw [h0.enough _ (by omega), show s.b.nBytes = n by omega, Nat.sub_self,
      List.drop_eq_nil_of_le (by simp; omega)]
    exact h0.nil hn

/-- The wrapper on the last value of the input. -/
theorem Reads.last {α : Type} {f : JFn α} {s : RJ} {fuel : Nat} {ws r : Bytes} {v : α} (h : s.Sync)
    (hcl : s.b.reader.Clean) (hf : s.b.reader.size + 2 ≤ fuel) (hr : s.rest = ws ++ r) (hnorm : norm none s.rest = r)
    (h1 : Reads f (ws ++ r) (ws.length + r.length) v) (h0 : Reads f r r.length v) (hn : 0 < r.length)
    (hbuf : r.length ≤ s.b.buf.length)
    (hagain : s.jidx = 0 → ws = [] → s.b.nBytes < r.length → Again f true r s.b.nBytes)
    (hpos : 0 < s.jidx ∨ ws ≠ [] ∨ s.b.nBytes < r.length) :
    ∃ s', s.loopUntilSuccess fuel f none true = (s', .ok v) ∧ s'.Sync ∧ s'.rest = [] := by
  refine RJ.call_last h hcl hf hr hnorm ⟨hn, by simpa using h0.enough r.length (Nat.le_refl _), h0.short⟩ ?_ hagain hbuf hpos
  intro k hk n w hw
  rw [hr] at hk hw
  by_cases hkn : k < ws.length + r.length
  · have := h1.short k hkn
    rw [hw] at this; exact this.2
  · rw [h1.enough k (by omega)] at hw
    have := (Prod.mk.inj hw).1
    rw [List.length_append] at hk
    omega

end Verif.RJiter
