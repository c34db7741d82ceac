import Verif.RJiter.JiterGood

/-!
# The wrappers: a call that succeeds on the complete document succeeds on the stream
-/

namespace Verif.RJiter

open Buffer RJ Jiter

/-- A second attempt at the place the first one moved to asks for more, too. -/
def Again {α : Type} (f : JFn α) (eager : Bool) (r : Bytes) (k : Nat) : Prop :=
  Retry eager (k - (f (r.take k)).1) (f ((r.take k).drop (f (r.take k)).1))

/-- `f` asks for more on an empty input. -/
def AskNil {α : Type} (f : JFn α) : Prop := ∃ m e, f [] = (m, .error e) ∧ canRetry e.type = true

theorem Stay.again {α : Type} {f : JFn α} {eager : Bool} {r : Bytes} {n need : Nat} {v : α}
    (hs : Stay f r need) (hg : Good f eager r n v need) (hn : AskNil f) {k : Nat} (hk : k < need) :
    Again f eager r k := by
  unfold Again
  rcases hs k hk with h0 | h0
  · rw [h0]; simpa using hg.short k hk
  · rw [List.drop_eq_nil_of_le (by simp; omega)]
    obtain ⟨m, e, h1, h2⟩ := hn
    rw [h1]; exact h2

theorem call_complete {α : Type} {f : JFn α} {tok : Option Byte} {eager : Bool} {s : RJ} {fuel : Nat}
    {p n0 need0 : Nat} {v : α} {R0 : Bytes}
    (h : s.Sync) (hc : s.b.reader.Clean) (hf : s.b.reader.size + 2 ≤ fuel)
    (hR : norm tok s.rest = R0) (hp : s.rest.length = p + R0.length)
    (hg : Good f eager s.rest (p + n0) v (p + need0)) (hg0 : Good f eager R0 n0 v need0)
    (htok : tok ≠ none → 1 ≤ n0) (hl : 0 < s.b.buf.length) (hl2 : tok ≠ none → 1 < s.b.buf.length)
    (hbuf : need0 ≤ s.b.buf.length)
    (hre : s.jidx = 0 → p = 0 → s.b.nBytes < need0 → Again f eager R0 s.b.nBytes) :
    ∃ s', s.loopUntilSuccess fuel f tok eager = (s', .ok v) ∧ s.Moved s' (p + n0) := by
  subst hR
  apply loopUntilSuccess_complete s fuel h hc hg hg0 (by omega) (by omega)
    (fun t ht _ => htok (by rw [ht]; simp)) hl hl2 hbuf _ hf
  intro h0 hn hlt
  rw [hn] at hp
  have hjd : s.jdata = s.rest.take s.b.nBytes := by
    rw [rest_eq h, jdata_eq h, h0, List.drop_zero, List.take_append_of_le_length (by simp [valid_length h.ok]),
      List.take_of_length_le (by simp [valid_length h.ok])]
  have := hre h0 (by omega) (by omega)
  rw [hn] at this
  rw [hjd]
  exact this

/-! ### `norm` on documents -/

theorem dropWhile_ws {ws : Bytes} (hw : Ws ws) {c : Byte} (hc : isAsciiWs c = false) (t : Bytes) :
    (ws ++ c :: t).dropWhile isAsciiWs = c :: t := by
  rw [List.dropWhile_append_of_pos (fun a ha => isAscii_of_isWs (hw a ha)), List.dropWhile_cons, if_neg (by simp [hc])]

theorem norm_none {ws : Bytes} (hw : Ws ws) {c : Byte} (hc : isAsciiWs c = false) (t : Bytes) :
    norm none (ws ++ c :: t) = c :: t := by
  unfold norm; rw [dropWhile_ws hw hc]

theorem norm_other {ws : Bytes} (hw : Ws ws) {c x : Byte} (hc : isAsciiWs c = false) (hx : c ≠ x) (t : Bytes) :
    norm (some x) (ws ++ c :: t) = c :: t := by
  unfold norm; rw [dropWhile_ws hw hc]; simp only [if_neg hx]

theorem norm_tok {ws ws2 : Bytes} (hw : Ws ws) (hw2 : Ws ws2) {c x : Byte} (hx : isAsciiWs x = false)
    (hc : isAsciiWs c = false) (t : Bytes) :
    norm (some x) (ws ++ x :: (ws2 ++ c :: t)) = x :: c :: t := by
  unfold norm; rw [dropWhile_ws hw hx]; simp only [if_true]; rw [dropWhile_ws hw2 hc]

/-! ### Functions without a transparent token -/

/-- A function that skips leading whitespace. -/
theorem call_skips {α : Type} {f : JFn α} (hsk : Skips f f) {eager : Bool} {s : RJ} {fuel : Nat} {ws t : Bytes}
    {c : Byte} {n need : Nat} {v : α}
    (h : s.Sync) (hcl : s.b.reader.Clean) (hf : s.b.reader.size + 2 ≤ fuel)
    (hr : s.rest = ws ++ c :: t) (hw : Ws ws) (hc : isAsciiWs c = false)
    (hg : Good f eager (c :: t) n v need) (hst : Stay f (c :: t) need) (hn : 0 < need)
    (hbuf : need ≤ s.b.buf.length) :
    ∃ s', s.loopUntilSuccess fuel f none eager = (s', .ok v) ∧ s.Moved s' (ws.length + n) := by
  have hc' : isWs c = false := by
    cases hi : isWs c with
    | false => rfl
    | true => rw [isAscii_of_isWs hi] at hc; exact absurd hc (by simp)
  refine call_complete (tok := none) (R0 := c :: t) h hcl hf (by rw [hr, norm_none hw hc]) (by rw [hr, List.length_append])
    (by rw [hr]; exact hsk.good hw hc' hg hn) hg (by simp) (by omega) (by simp) hbuf ?_
  intro _ _ hk
  obtain ⟨m, e, h1, h2, _⟩ := hsk.onWs [] Ws.nil
  exact Stay.again hst hg ⟨m, e, h1, h2⟩ hk

/-- A function that expects its token at once. -/
theorem call_known {α : Type} {f : JFn α} (hk : PrefixFn f) {s : RJ} {fuel : Nat} {t : Bytes} {c : Byte} {n : Nat}
    {v : α} (h : s.Sync) (hcl : s.b.reader.Clean) (hf : s.b.reader.size + 2 ≤ fuel)
    (hr : s.rest = c :: t) (hc : isAsciiWs c = false) (hfv : f (c :: t) = (n, .ok v))
    (hbuf : n ≤ s.b.buf.length) :
    ∃ s', s.loopUntilSuccess fuel f none false = (s', .ok v) ∧ s.Moved s' n := by
  have hg := hk.good hfv
  obtain ⟨k1, _, k3, k4⟩ := hk _ _ _ hfv
  have hst : Stay f (c :: t) n := by
    intro k hkn
    obtain ⟨e, he, _⟩ := k4 k hkn
    left; rw [he]
  have hnil : AskNil f := by
    obtain ⟨e, he, hr⟩ := k4 0 (by omega)
    exact ⟨0, e, he, hr⟩
  have := call_complete (s := s) (fuel := fuel) (tok := none) (eager := false) (p := 0) (R0 := c :: t) h hcl hf
    (by rw [hr]; exact norm_none Ws.nil hc t) (by rw [hr]; omega)
    (by rw [hr]; simpa using hg) hg (by simp) (by omega) (by simp) hbuf (fun _ _ hkk => Stay.again hst hg hnil hkk)
  simpa using this

theorem Next.stay {α : Type} {f : JFn α} {sel : Byte → Option (JFn α)} (h : Next f sel) {c : Byte} {t : Bytes}
    {g : JFn α} (hc : isWs c = false) (hs : sel c = some g) {need : Nat} (hg : Stay g (c :: t) need) :
    Stay f (c :: t) need := by
  intro k hk
  cases k with
  | zero => right; omega
  | succ k =>
    have h0 : peek (c :: t.take k) = (0, .ok c) := by
      have := peek_tok Ws.nil hc (t.take k)
      simpa using this
    have := hg (k + 1) hk
    rw [List.take_succ_cons] at this ⊢
    rw [h.good _ _ _ _ h0 hs]
    simpa using this

theorem PrefixFn.stay {α : Type} {f : JFn α} (hk : PrefixFn f) {d : Bytes} {n : Nat} {v : α}
    (hfv : f d = (n, .ok v)) : Stay f d n := by
  intro k hkn
  obtain ⟨e, he, _⟩ := (hk _ _ _ hfv).2.2.2 k hkn
  left; rw [he]

/-- A `next_*` function over a `known_*` function. -/
theorem call_next {α : Type} {f g : JFn α} {sel : Byte → Option (JFn α)} (hn : Next f sel) (hk : PrefixFn g)
    {s : RJ} {fuel : Nat} {ws t : Bytes} {c : Byte} {n : Nat} {v : α}
    (h : s.Sync) (hcl : s.b.reader.Clean) (hf : s.b.reader.size + 2 ≤ fuel)
    (hr : s.rest = ws ++ c :: t) (hw : Ws ws) (hc : isAsciiWs c = false) (hs : sel c = some g)
    (hfv : g (c :: t) = (n, .ok v)) (hbuf : n ≤ s.b.buf.length) :
    ∃ s', s.loopUntilSuccess fuel f none false = (s', .ok v) ∧ s.Moved s' (ws.length + n) := by
  have hc' : isWs c = false := by
    cases hi : isWs c with
    | false => rfl
    | true => rw [isAscii_of_isWs hi] at hc; exact absurd hc (by simp)
  have := (hk _ _ _ hfv).1
  exact call_skips hn.skips h hcl hf hr hw hc (hn.good' hc' hs (hk.good hfv) (by omega))
    (Next.stay hn hc' hs (PrefixFn.stay hk hfv)) (by omega) hbuf

theorem peek_good {c : Byte} (hc : isWs c = false) (t : Bytes) : Good Jiter.peek false (c :: t) 0 c 1 := by
  refine ⟨by simp, by omega, by simp, ?_, ?_⟩
  · intro k hk _
    obtain ⟨k, rfl⟩ : ∃ j, k = j + 1 := ⟨k - 1, by omega⟩
    rw [List.take_succ_cons]
    have := peek_tok Ws.nil hc (t.take k)
    simpa using this
  · intro k hk
    obtain rfl : k = 0 := by omega
    exact rfl

theorem peek_skips : Skips Jiter.peek Jiter.peek := by
  constructor
  · intro ws h; exact ⟨_, _, peek_ws h, rfl, rfl⟩
  · intro ws c t h hc
    have h0 := peek_tok Ws.nil hc t
    simp only [List.nil_append, List.length_nil] at h0
    rw [peek_tok h hc, h0]
    simp

theorem RJ.peek_complete {s : RJ} {fuel : Nat} {ws t : Bytes} {c : Byte} (h : s.Sync) (hcl : s.b.reader.Clean)
    (hf : s.b.reader.size + 2 ≤ fuel) (hl : 0 < s.b.buf.length)
    (hr : s.rest = ws ++ c :: t) (hw : Ws ws) (hc : isAsciiWs c = false) :
    ∃ s', s.peek fuel = (s', .ok c) ∧ s.Moved s' ws.length := by
  have hc' : isWs c = false := by
    cases hi : isWs c with
    | false => rfl
    | true => rw [isAscii_of_isWs hi] at hc; exact absurd hc (by simp)
  have := call_skips peek_skips h hcl hf hr hw hc (peek_good hc' t) (by
    intro k hk; right; omega) (by omega) hl
  rw [Nat.add_zero] at this
  exact this

/-! ### Numbers -/

theorem RJ.nextNumberBytes_complete {s : RJ} {fuel : Nat} {ws t : Bytes} {c : Byte} {n : Nat} {v : Bytes}
    (h : s.Sync) (hcl : s.b.reader.Clean) (hf : s.b.reader.size + 2 ≤ fuel)
    (hr : s.rest = ws ++ c :: t) (hw : Ws ws) (hc : c = 45 ∨ isDigit c = true)
    (hfv : numberTok (c :: t) = (n, .ok v)) (hlast : n < (c :: t).length) (hbuf : n + 1 ≤ s.b.buf.length) :
    ∃ s', s.nextNumberBytes fuel = (s', .ok v) ∧ s.Moved s' (ws.length + n) := by
  have hca : isAsciiWs c = false := by
    rcases hc with rfl | hc
    · decide
    · cases hi : isAsciiWs c with
      | false => rfl
      | true =>
        simp only [isAsciiWs, Bool.or_eq_true, beq_iff_eq] at hi
        rcases hi with (((rfl | rfl) | rfl) | rfl) | rfl <;> exact absurd hc (by decide)
  have hc' : isWs c = false := by
    cases hi : isWs c with
    | false => rfl
    | true => rw [isAscii_of_isWs hi] at hca; exact absurd hca (by simp)
  obtain ⟨g1, _, _, g4⟩ := numberTok_good hfv hlast
  have hs : (fun c => if c = 45 ∨ isDigit c = true then some numberTok else none) c = some numberTok := by
    simp only [if_pos hc]
  exact call_skips nextNumber_next.skips h hcl hf hr hw hca (nextNumber_next.good' hc' hs g1 (by omega))
    (Next.stay nextNumber_next hc' hs g4) (by omega) hbuf

/-! ### Arrays -/

theorem knownArray_stay (x : Byte) {ws : Bytes} (h : Ws ws) {c : Byte} (t : Bytes) :
    Stay Jiter.knownArray (x :: (ws ++ c :: t)) (1 + ws.length + 1) := by
  intro k hk
  cases k with
  | zero => right; omega
  | succ k =>
    right
    rw [List.take_succ_cons]
    rcases take_ws ws c t k with ⟨h1, e⟩ | ⟨h1, e⟩
    · rw [e, knownArray_ws x (Ws.take h k)]; simp; omega
    · omega

theorem RJ.knownArray_complete {s : RJ} {fuel : Nat} {ws t : Bytes} {c : Byte}
    (h : s.Sync) (hcl : s.b.reader.Clean) (hf : s.b.reader.size + 2 ≤ fuel) (hl : 2 ≤ s.b.buf.length)
    (hr : s.rest = 91 :: (ws ++ c :: t)) (hw : Ws ws) (hc : isAsciiWs c = false) :
    ∃ s', s.knownArray fuel = (s', .ok (if c = 93 then none else some c)) ∧
      s.Moved s' (1 + ws.length + if c = 93 then 1 else 0) := by
  have hc' : isWs c = false := by
    cases hi : isWs c with
    | false => rfl
    | true => rw [isAscii_of_isWs hi] at hc; exact absurd hc (by simp)
  have hg := knownArray_good 91 hw hc' t
  have hg0 := knownArray_good 91 Ws.nil hc' t
  simp only [List.nil_append, List.length_nil, Nat.add_zero] at hg0
  have hst := knownArray_stay 91 Ws.nil (c := c) t
  simp only [List.nil_append, List.length_nil, Nat.add_zero] at hst
  have := call_complete (s := s) (fuel := fuel) (tok := some 91) (eager := false) (p := ws.length)
    (n0 := if c = 93 then 1 + 1 else 1) (need0 := 1 + 1) (v := if c = 93 then none else some c)
    (R0 := 91 :: c :: t) h hcl hf
    (by rw [hr]; exact norm_tok Ws.nil hw (by decide) hc t)
    (by rw [hr]; simp; omega)
    (by rw [hr]
        have e1 : ws.length + (if c = 93 then 1 + 1 else 1) = if c = 93 then 1 + ws.length + 1 else 1 + ws.length := by
          split <;> omega
        rw [e1, show ws.length + (1 + 1) = 1 + ws.length + 1 by omega]
        exact hg) hg0
    (by intro _; split <;> omega) (by omega) (by intro _; omega) hl
    (fun _ _ hk => Stay.again hst hg0 ⟨_, _, knownArray_nil, rfl⟩ hk)
  obtain ⟨s', e, hm⟩ := this
  refine ⟨s', e, ?_⟩
  rw [show 1 + ws.length + (if c = 93 then 1 else 0) = ws.length + (if c = 93 then 1 + 1 else 1) by split <;> omega]
  exact hm

theorem RJ.nextArray_complete {s : RJ} {fuel : Nat} {ws0 ws t : Bytes} {c : Byte}
    (h : s.Sync) (hcl : s.b.reader.Clean) (hf : s.b.reader.size + 2 ≤ fuel) (hl : 2 ≤ s.b.buf.length)
    (hr : s.rest = ws0 ++ 91 :: (ws ++ c :: t)) (hw0 : Ws ws0) (hw : Ws ws) (hc : isAsciiWs c = false) :
    ∃ s', s.nextArray fuel = (s', .ok (if c = 93 then none else some c)) ∧
      s.Moved s' (ws0.length + 1 + ws.length + if c = 93 then 1 else 0) := by
  have hc' : isWs c = false := by
    cases hi : isWs c with
    | false => rfl
    | true => rw [isAscii_of_isWs hi] at hc; exact absurd hc (by simp)
  have hsel : (fun c : Byte => if c = 91 then some Jiter.knownArray else none) 91 = some Jiter.knownArray := by simp
  have hg := nextArray_next.skips.good hw0 (by decide)
    (nextArray_next.good' (c := 91) (by decide) hsel (knownArray_good 91 hw hc' t) (by omega)) (by omega)
  have hg0 := nextArray_next.good' (c := 91) (by decide) hsel (knownArray_good 91 Ws.nil hc' t) (by omega)
  have hst := Next.stay nextArray_next (c := 91) (by decide) hsel (knownArray_stay 91 Ws.nil (c := c) t)
  simp only [List.nil_append, List.length_nil, Nat.add_zero] at hg0 hst
  have := call_complete (s := s) (fuel := fuel) (tok := some 91) (eager := false) (p := ws0.length + ws.length)
    (n0 := if c = 93 then 1 + 1 else 1) (need0 := 1 + 1) (v := if c = 93 then none else some c)
    (R0 := 91 :: c :: t) h hcl hf
    (by rw [hr]; exact norm_tok hw0 hw (by decide) hc t)
    (by rw [hr]; simp; omega)
    (by rw [hr]
        have e1 : ws0.length + ws.length + (if c = 93 then 1 + 1 else 1) =
            ws0.length + if c = 93 then 1 + ws.length + 1 else 1 + ws.length := by
          split <;> omega
        rw [e1, show ws0.length + ws.length + (1 + 1) = ws0.length + (1 + ws.length + 1) by omega]
        exact hg) hg0
    (by intro _; split <;> omega) (by omega) (by intro _; omega) hl
    (fun _ _ hk => Stay.again hst hg0 ⟨0, _, rfl, rfl⟩ hk)
  obtain ⟨s', e, hm⟩ := this
  refine ⟨s', e, ?_⟩
  rw [show ws0.length + 1 + ws.length + (if c = 93 then 1 else 0) =
    ws0.length + ws.length + (if c = 93 then 1 + 1 else 1) by split <;> omega]
  exact hm

theorem RJ.arrayStep_end {s : RJ} {fuel : Nat} {ws t : Bytes}
    (h : s.Sync) (hcl : s.b.reader.Clean) (hf : s.b.reader.size + 2 ≤ fuel) (hl : 2 ≤ s.b.buf.length)
    (hr : s.rest = ws ++ 93 :: t) (hw : Ws ws) :
    ∃ s', s.arrayStep fuel = (s', .ok none) ∧ s.Moved s' (ws.length + 1) := by
  have hg0 := arrayStep_good_end t
  refine call_complete (tok := some 44) (R0 := 93 :: t) h hcl hf
    (by rw [hr]; exact norm_other hw (by decide) (by decide) t) (by rw [hr, List.length_append])
    (by rw [hr]; exact arrayStep_skips.good hw (by decide) hg0 (by omega)) hg0 (by intro _; omega) (by omega)
    (by intro _; omega) (by omega) ?_
  intro _ _ hk
  refine Stay.again (need := 1) ?_ hg0 ⟨_, _, arrayStep_ws Ws.nil, rfl⟩ hk
  intro k hk; right; omega

theorem RJ.arrayStep_comma {s : RJ} {fuel : Nat} {ws ws2 t : Bytes} {c : Byte}
    (h : s.Sync) (hcl : s.b.reader.Clean) (hf : s.b.reader.size + 2 ≤ fuel) (hl : 2 ≤ s.b.buf.length)
    (hr : s.rest = ws ++ 44 :: (ws2 ++ c :: t)) (hw : Ws ws) (hw2 : Ws ws2) (hc : isAsciiWs c = false) (h93 : c ≠ 93) :
    ∃ s', s.arrayStep fuel = (s', .ok (some c)) ∧ s.Moved s' (ws.length + 1 + ws2.length) := by
  have hc' : isWs c = false := by
    cases hi : isWs c with
    | false => rfl
    | true => rw [isAscii_of_isWs hi] at hc; exact absurd hc (by simp)
  have hg := arrayStep_skips.good hw (by decide) (arrayStep_good_comma hw2 hc' h93 t) (by omega)
  have hg0 := arrayStep_good_comma Ws.nil hc' h93 t
  simp only [List.nil_append, List.length_nil, Nat.add_zero] at hg0
  have hst : Stay Jiter.arrayStep (44 :: c :: t) (1 + 1) := by
    intro k hk
    cases k with
    | zero => right; omega
    | succ k =>
      obtain rfl : k = 0 := by omega
      right; exact Nat.le_refl _
  have := call_complete (s := s) (fuel := fuel) (tok := some 44) (eager := false) (p := ws.length + ws2.length)
    (n0 := 1) (need0 := 1 + 1) (v := some c) (R0 := 44 :: c :: t) h hcl hf
    (by rw [hr]; exact norm_tok hw hw2 (by decide) hc t)
    (by rw [hr]; simp; omega)
    (by rw [hr, show ws.length + ws2.length + 1 = ws.length + (1 + ws2.length) by omega,
          show ws.length + ws2.length + (1 + 1) = ws.length + (1 + ws2.length + 1) by omega]
        exact hg) hg0
    (by intro _; omega) (by omega) (by intro _; omega) hl
    (fun _ _ hk => Stay.again hst hg0 ⟨_, _, arrayStep_ws Ws.nil, rfl⟩ hk)
  obtain ⟨s', e, hm⟩ := this
  refine ⟨s', e, ?_⟩
  rw [show ws.length + 1 + ws2.length = ws.length + ws2.length + 1 by omega]
  exact hm

/-! ### Objects -/

/-- Where a second attempt of `known_object` / `next_object` would not start inside the object: the object
does not start the buffer, or there is space (`p` bytes) that is skipped before the second attempt, or the buffer
does not end inside the first key, which is `m` bytes long with its quotes. -/
def ObjSafe (s : RJ) (p m : Nat) : Prop := s.jidx = 0 → p = 0 → s.b.nBytes ≤ 1 ∨ 1 + m ≤ s.b.nBytes

/-- From the closing quote of the key to its colon a parser moves to the end of what it has. -/
def Colon (known : JFn Bytes) (t : Bytes) (m n : Nat) : Prop :=
  ∀ j, m ≤ j → j < n → ∃ e, objectKey known ((34 :: t).take j) = (j, .error e)

theorem knownObject_key_again (t : Bytes) {m n k : Nat} (hk : k ≤ 1 ∨ 1 + m ≤ k) (hkn : k < 1 + n) {f : JFn (Option Bytes)}
    (hn : AskNil f) (h1 : 1 ≤ (f [123]).1)
    (hm : ∀ j, m ≤ j → j < n → j + 1 ≤ (f (123 :: (34 :: t).take j)).1) : Again f false (123 :: 34 :: t) k := by
  obtain ⟨m, e, hn, hr⟩ := hn
  unfold Again
  rcases hk with hk | hk
  · have : k = 0 ∨ k = 1 := by omega
    rcases this with rfl | rfl
    · simp only [List.take_zero, List.drop_nil, hn]; exact hr
    · rw [show (123 :: 34 :: t : Bytes).take 1 = [123] from rfl, List.drop_eq_nil_of_le (by simpa using h1), hn]
      exact hr
  · obtain ⟨j, rfl⟩ : ∃ j, k = j + 1 := ⟨k - 1, by omega⟩
    rw [List.take_succ_cons]
    have := hm j (by omega) (by omega)
    rw [List.drop_eq_nil_of_le (by simp only [List.length_cons, List.length_take]; omega), hn]
    exact hr

theorem knownObject_colon {known : JFn Bytes} {t : Bytes} {m n : Nat} (h : Colon known t m n) (j : Nat) (h0 : m ≤ j) (h1 : j < n)
    (h2 : 0 < m) : (Jiter.knownObject known (123 :: (34 :: t).take j)).1 = j + 1 := by
  obtain ⟨e, he⟩ := h j h0 h1
  obtain ⟨j, rfl⟩ : ∃ i, j = i + 1 := ⟨j - 1, by omega⟩
  rw [List.take_succ_cons] at he ⊢
  have := Jiter.knownObject_tok known 123 Ws.nil (c := 34) (t := t.take j) (by decide)
  simp only [List.nil_append, he, if_true] at this
  rw [this]
  simp only [List.length_nil]
  omega

theorem nextObject_colon {known : JFn Bytes} {t : Bytes} {m n : Nat} (h : Colon known t m n) (j : Nat) (h0 : m ≤ j) (h1 : j < n)
    (h2 : 0 < m) : (Jiter.nextObject known (123 :: (34 :: t).take j)).1 = j + 1 := by
  have hp := Jiter.peek_tok Ws.nil (c := 123) (by decide) ((34 :: t).take j)
  simp only [List.nil_append, List.length_nil] at hp
  simp only [Jiter.nextObject, hp, if_true, List.drop_zero]
  have := knownObject_colon h j h0 h1 h2
  rcases hx : Jiter.knownObject known (123 :: (34 :: t).take j) with ⟨i, r⟩
  rw [hx] at this
  cases r <;> simp only at this ⊢ <;> omega

theorem knownObject_known_complete {known : JFn Bytes} (hk : PrefixFn known) {s : RJ} {fuel : Nat} {ws t key : Bytes}
    {n : Nat}
    (h : s.Sync) (hcl : s.b.reader.Clean) (hf : s.b.reader.size + 2 ≤ fuel)
    (hr : s.rest = 123 :: (ws ++ 34 :: t)) (hw : Ws ws) (ho : objectKey known (34 :: t) = (n, .ok key))
    (hbuf : 1 + n ≤ s.b.buf.length) {m : Nat} (hm : 0 < m) (hcol : Colon known t m n) (hsafe : ObjSafe s ws.length m) :
    ∃ s', s.loopUntilSuccess fuel (Jiter.knownObject known) (some 123) false = (s', .ok (some key)) ∧
      s.Moved s' (1 + ws.length + n) := by
  have hg := knownObject_good_key hk 123 hw t ho
  have hg0 := knownObject_good_key hk 123 Ws.nil t ho
  simp only [List.nil_append, List.length_nil, Nat.add_zero] at hg0
  have h2 := (objectKey_prefix hk ho).1
  have := call_complete (s := s) (fuel := fuel) (tok := some 123) (eager := false) (p := ws.length)
    (n0 := 1 + n) (need0 := 1 + n) (v := some key) (R0 := 123 :: 34 :: t) h hcl hf
    (by rw [hr]; exact norm_tok Ws.nil hw (by decide) (by decide) t)
    (by rw [hr]; simp; omega)
    (by rw [hr, show ws.length + (1 + n) = 1 + ws.length + n by omega]; exact hg) hg0
    (by intro _; omega) (by omega) (by intro _; omega) hbuf
    (by
      intro h0 hp hlt
      exact knownObject_key_again t (hsafe h0 hp) hlt ⟨1, _, rfl, rfl⟩ (Nat.le_refl _)
        (fun j h1 h2 => Nat.le_of_eq (knownObject_colon hcol j h1 h2 hm).symm))
  obtain ⟨s', e, hm⟩ := this
  refine ⟨s', e, ?_⟩
  rw [show 1 + ws.length + n = ws.length + (1 + n) by omega]
  exact hm

theorem knownObject_end_stay (known : JFn Bytes) (t : Bytes) : Stay (Jiter.knownObject known) (123 :: 125 :: t) 2 := by
  intro k hk
  have : k = 0 ∨ k = 1 := by omega
  rcases this with rfl | rfl
  · right; omega
  · right; exact Nat.le_refl _

theorem knownObject_empty_complete (known : JFn Bytes) {s : RJ} {fuel : Nat} {ws t : Bytes}
    (h : s.Sync) (hcl : s.b.reader.Clean) (hf : s.b.reader.size + 2 ≤ fuel) (hl : 2 ≤ s.b.buf.length)
    (hr : s.rest = 123 :: (ws ++ 125 :: t)) (hw : Ws ws) :
    ∃ s', s.loopUntilSuccess fuel (Jiter.knownObject known) (some 123) false = (s', .ok none) ∧
      s.Moved s' (1 + ws.length + 1) := by
  have hg := knownObject_good_end known 123 hw t
  have hg0 := knownObject_good_end known 123 Ws.nil t
  simp only [List.nil_append, List.length_nil, Nat.add_zero] at hg0
  have := call_complete (s := s) (fuel := fuel) (tok := some 123) (eager := false) (p := ws.length)
    (n0 := 1 + 1) (need0 := 1 + 1) (v := none) (R0 := 123 :: 125 :: t) h hcl hf
    (by rw [hr]; exact norm_tok Ws.nil hw (by decide) (by decide) t)
    (by rw [hr]; simp; omega)
    (by rw [hr, show ws.length + (1 + 1) = 1 + ws.length + 1 by omega]; exact hg) hg0
    (by intro _; omega) (by omega) (by intro _; omega) hl
    (fun _ _ hk => Stay.again (knownObject_end_stay known t) hg0 ⟨1, _, rfl, rfl⟩ hk)
  obtain ⟨s', e, hm⟩ := this
  refine ⟨s', e, ?_⟩
  rw [show 1 + ws.length + 1 = ws.length + (1 + 1) by omega]
  exact hm

theorem nextObject_key_complete {known : JFn Bytes} (hk : PrefixFn known) {s : RJ} {fuel : Nat}
    {ws0 ws t key : Bytes} {n : Nat}
    (h : s.Sync) (hcl : s.b.reader.Clean) (hf : s.b.reader.size + 2 ≤ fuel)
    (hr : s.rest = ws0 ++ 123 :: (ws ++ 34 :: t)) (hw0 : Ws ws0) (hw : Ws ws)
    (ho : objectKey known (34 :: t) = (n, .ok key))
    (hbuf : 1 + n ≤ s.b.buf.length) {m : Nat} (hm : 0 < m) (hcol : Colon known t m n) (hsafe : ObjSafe s (ws0.length + ws.length) m) :
    ∃ s', s.loopUntilSuccess fuel (Jiter.nextObject known) (some 123) false = (s', .ok (some key)) ∧
      s.Moved s' (ws0.length + 1 + ws.length + n) := by
  have hsel : (fun c : Byte => if c = 123 then some (Jiter.knownObject known) else none) 123 =
    some (Jiter.knownObject known) := by simp
  have hg := (nextObject_next known).skips.good hw0 (by decide)
    ((nextObject_next known).good' (c := 123) (by decide) hsel (knownObject_good_key hk 123 hw t ho) (by omega)) (by omega)
  have hg0 := (nextObject_next known).good' (c := 123) (by decide) hsel (knownObject_good_key hk 123 Ws.nil t ho) (by omega)
  simp only [List.nil_append, List.length_nil, Nat.add_zero] at hg0
  have h2 := (objectKey_prefix hk ho).1
  have := call_complete (s := s) (fuel := fuel) (tok := some 123) (eager := false) (p := ws0.length + ws.length)
    (n0 := 1 + n) (need0 := 1 + n) (v := some key) (R0 := 123 :: 34 :: t) h hcl hf
    (by rw [hr]; exact norm_tok hw0 hw (by decide) (by decide) t)
    (by rw [hr]; simp; omega)
    (by rw [hr, show ws0.length + ws.length + (1 + n) = ws0.length + (1 + ws.length + n) by omega]; exact hg) hg0
    (by intro _; omega) (by omega) (by intro _; omega) hbuf
    (by
      intro h0 hp hlt
      exact knownObject_key_again t (hsafe h0 hp) hlt ⟨0, _, rfl, rfl⟩ (Nat.le_refl _)
        (fun j h1 h2 => Nat.le_of_eq (nextObject_colon hcol j h1 h2 hm).symm))
  obtain ⟨s', e, hm⟩ := this
  refine ⟨s', e, ?_⟩
  rw [show ws0.length + 1 + ws.length + n = ws0.length + ws.length + (1 + n) by omega]
  exact hm

theorem nextObject_empty_complete (known : JFn Bytes) {s : RJ} {fuel : Nat} {ws0 ws t : Bytes}
    (h : s.Sync) (hcl : s.b.reader.Clean) (hf : s.b.reader.size + 2 ≤ fuel) (hl : 2 ≤ s.b.buf.length)
    (hr : s.rest = ws0 ++ 123 :: (ws ++ 125 :: t)) (hw0 : Ws ws0) (hw : Ws ws) :
    ∃ s', s.loopUntilSuccess fuel (Jiter.nextObject known) (some 123) false = (s', .ok none) ∧
      s.Moved s' (ws0.length + 1 + ws.length + 1) := by
  have hsel : (fun c : Byte => if c = 123 then some (Jiter.knownObject known) else none) 123 =
    some (Jiter.knownObject known) := by simp
  have hg := (nextObject_next known).skips.good hw0 (by decide)
    ((nextObject_next known).good' (c := 123) (by decide) hsel (knownObject_good_end known 123 hw t) (by omega)) (by omega)
  have hg0 := (nextObject_next known).good' (c := 123) (by decide) hsel (knownObject_good_end known 123 Ws.nil t) (by omega)
  simp only [List.nil_append, List.length_nil, Nat.add_zero] at hg0
  have hst := Next.stay (nextObject_next known) (c := 123) (by decide) hsel (knownObject_end_stay known t)
  have := call_complete (s := s) (fuel := fuel) (tok := some 123) (eager := false) (p := ws0.length + ws.length)
    (n0 := 1 + 1) (need0 := 1 + 1) (v := none) (R0 := 123 :: 125 :: t) h hcl hf
    (by rw [hr]; exact norm_tok hw0 hw (by decide) (by decide) t)
    (by rw [hr]; simp; omega)
    (by rw [hr, show ws0.length + ws.length + (1 + 1) = ws0.length + (1 + ws.length + 1) by omega]; exact hg) hg0
    (by intro _; omega) (by omega) (by intro _; omega) hl
    (fun _ _ hk => Stay.again hst hg0 ⟨0, _, rfl, rfl⟩ hk)
  obtain ⟨s', e, hm⟩ := this
  refine ⟨s', e, ?_⟩
  rw [show ws0.length + 1 + ws.length + 1 = ws0.length + ws.length + (1 + 1) by omega]
  exact hm

theorem nextKey_end_complete (known : JFn Bytes) {s : RJ} {fuel : Nat} {ws t : Bytes}
    (h : s.Sync) (hcl : s.b.reader.Clean) (hf : s.b.reader.size + 2 ≤ fuel) (hl : 2 ≤ s.b.buf.length)
    (hr : s.rest = ws ++ 125 :: t) (hw : Ws ws) :
    ∃ s', s.loopUntilSuccess fuel (Jiter.nextKey known) (some 44) false = (s', .ok none) ∧
      s.Moved s' (ws.length + 1) := by
  have hg0 := nextKey_good_end known t
  refine call_complete (tok := some 44) (R0 := 125 :: t) h hcl hf
    (by rw [hr]; exact norm_other hw (by decide) (by decide) t) (by rw [hr, List.length_append])
    (by rw [hr]; exact (nextKey_skips known).good hw (by decide) hg0 (by omega)) hg0 (by intro _; omega) (by omega)
    (by intro _; omega) (by omega) ?_
  intro _ _ hk
  refine Stay.again (need := 1) ?_ hg0 ⟨_, _, nextKey_ws known Ws.nil, rfl⟩ hk
  intro k hk; right; omega

theorem nextKey_key_complete {known : JFn Bytes} (hk : PrefixFn known) {s : RJ} {fuel : Nat}
    {ws0 ws t key : Bytes} {n : Nat}
    (h : s.Sync) (hcl : s.b.reader.Clean) (hf : s.b.reader.size + 2 ≤ fuel)
    (hr : s.rest = ws0 ++ 44 :: (ws ++ 34 :: t)) (hw0 : Ws ws0) (hw : Ws ws)
    (ho : objectKey known (34 :: t) = (n, .ok key)) (hbuf : 1 + n ≤ s.b.buf.length) :
    ∃ s', s.loopUntilSuccess fuel (Jiter.nextKey known) (some 44) false = (s', .ok (some key)) ∧
      s.Moved s' (ws0.length + 1 + ws.length + n) := by
  have hg := (nextKey_skips known).good hw0 (by decide) (nextKey_good_key hk hw t ho) (by omega)
  have hg0 := nextKey_good_key hk Ws.nil t ho
  simp only [List.nil_append, List.length_nil, Nat.add_zero] at hg0
  obtain ⟨o1, o2, o3, o4⟩ := objectKey_prefix hk ho
  have := call_complete (s := s) (fuel := fuel) (tok := some 44) (eager := false) (p := ws0.length + ws.length)
    (n0 := 1 + n) (need0 := 1 + n) (v := some key) (R0 := 44 :: 34 :: t) h hcl hf
    (by rw [hr]; exact norm_tok hw0 hw (by decide) (by decide) t)
    (by rw [hr]; simp; omega)
    (by rw [hr, show ws0.length + ws.length + (1 + n) = ws0.length + (1 + ws.length + n) by omega]; exact hg) hg0
    (by intro _; omega) (by omega) (by intro _; omega) hbuf
    (by
      intro h0 hp hlt
      generalize s.b.nBytes = k at hlt
      unfold Again
      match k with
      | 0 => exact rfl
      | 1 => exact rfl
      | k + 2 =>
        rw [List.take_succ_cons, List.take_succ_cons]
        have hc := nextKey_comma known Ws.nil (t.take k)
        simp only [List.nil_append, List.length_nil, Nat.add_zero] at hc
        obtain ⟨m, e, he, hr, hm⟩ := o4 (k + 1) (by omega)
        rw [List.take_succ_cons] at he
        rw [he] at hc
        simp only at hc
        rw [hc]
        simp only
        rcases hm with rfl | hm
        · rw [Nat.add_zero, List.drop_succ_cons, List.drop_zero]
          have h1 := nextKey_tok known Ws.nil (c := 34) (by decide) (t.take k)
          simp only [List.nil_append, List.length_nil] at h1
          rw [if_neg (by decide), if_neg (by decide)] at h1
          rw [h1]; exact rfl
        · rw [List.drop_eq_nil_of_le (by simp; omega)]; exact rfl)
  obtain ⟨s', e, hm⟩ := this
  refine ⟨s', e, ?_⟩
  rw [show ws0.length + 1 + ws.length + n = ws0.length + ws.length + (1 + n) by omega]
  exact hm

end Verif.RJiter
