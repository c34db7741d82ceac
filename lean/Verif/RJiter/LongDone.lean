import Verif.RJiter.Long

/-!
# `handle_long` on a well-formed string
-/

namespace Verif.RJiter

open Buffer RJ Jiter

/-- An indivisible part of a string body, and what the two functions write for it. -/
inductive LongUnit : Kind → Bytes → Bytes → Prop where
  | char (k : Kind) (ch : Char) : PlainChar ch → LongUnit k (enc ch) (enc ch)
  | escRaw (e : Byte) (x : Char) : Escape e x → LongUnit .raw [92, e] [92, e]
  | escStr (e : Byte) (x : Char) : Escape e x → LongUnit .str [92, e] (enc x)
  | uniRaw (a b c d : Byte) (v : Nat) : Hex4 a b c d v → LongUnit .raw [92, 117, a, b, c, d] [92, 117, a, b, c, d]
  | uniStr (a b c d : Byte) (ch : Char) : Hex4 a b c d ch.toNat → LongUnit .str [92, 117, a, b, c, d] (enc ch)

/-- A body and what is written for it. -/
inductive LongBody (k : Kind) : Bytes → Bytes → Prop where
  | nil : LongBody k [] []
  | cons (u o r v : Bytes) : LongUnit k u o → LongBody k r v → LongBody k (u ++ r) (o ++ v)

theorem RawBody.long {body : Bytes} (h : RawBody body) : LongBody .raw body body := by
  induction h with
  | nil => exact .nil
  | char ch r hp _ ih => exact .cons _ _ _ _ (.char _ ch hp) ih
  | esc e x r he _ ih => exact .cons [92, e] [92, e] _ _ (.escRaw e x he) ih
  | uni a b c d v r hx _ ih =>
    exact .cons [92, 117, a, b, c, d] [92, 117, a, b, c, d] _ _ (.uniRaw a b c d v hx) ih

theorem StrBody.long {body : Bytes} {s : List Char} (h : StrBody false body s) : LongBody .str body (encAll s) := by
  induction h with
  | nil => exact .nil
  | char ch r s hp _ ih => exact .cons _ _ _ _ (.char _ ch hp) ih
  | esc e x r s he _ ih => exact .cons [92, e] (enc x) _ _ (.escStr e x he) ih
  | uni a b c d ch r s hx _ ih => exact .cons [92, 117, a, b, c, d] (enc ch) _ _ (.uniStr a b c d ch hx) ih
  | pair a b c d a' b' c' d' hi lo ch r s hp => cases hp

theorem LongBody.toRaw {k : Kind} {body v : Bytes} (h : LongBody k body v) : k = .raw → RawBody body ∧ v = body := by
  induction h with
  | nil => intro _; exact ⟨.nil, rfl⟩
  | cons u o r v hu _ ih =>
    intro hk
    obtain ⟨h1, h2⟩ := ih hk
    cases hu with
    | char _ ch hp => exact ⟨.char ch _ hp h1, by rw [h2]⟩
    | escRaw e x he => exact ⟨.esc e x _ he h1, by rw [h2]⟩
    | escStr e x he => cases hk
    | uniRaw a b c d w hx => exact ⟨.uni a b c d w _ hx h1, by rw [h2]⟩
    | uniStr a b c d ch hx => cases hk

theorem LongBody.toStr {k : Kind} {body v : Bytes} (h : LongBody k body v) :
    k = .str → ∃ s, StrBody false body s ∧ v = encAll s := by
  induction h with
  | nil => intro _; exact ⟨[], .nil, rfl⟩
  | cons u o r v hu _ ih =>
    intro hk
    obtain ⟨s, h1, h2⟩ := ih hk
    cases hu with
    | char _ ch hp => exact ⟨ch :: s, .char ch _ _ hp h1, by rw [h2]; rfl⟩
    | escRaw e x he => cases hk
    | escStr e x he => exact ⟨x :: s, .esc e x _ _ he h1, by rw [h2]; rfl⟩
    | uniRaw a b c d w hx => cases hk
    | uniStr a b c d ch hx => exact ⟨ch :: s, .uni a b c d ch _ _ hx h1, by rw [h2]; rfl⟩

theorem LongBody.parser {k : Kind} {r v : Bytes} (h : LongBody k r v) (q : Byte) (t : Bytes) :
    k.parser (q :: (r ++ 34 :: t)) = (r.length + 2, .ok v) := by
  cases k with
  | raw =>
    obtain ⟨h1, rfl⟩ := h.toRaw rfl
    exact knownBytes_body h1 q t
  | str =>
    obtain ⟨s, h1, rfl⟩ := h.toStr rfl
    exact knownStr_body h1 q t

/-- Writing a segment that is a body. -/
theorem LongBody.write {k : Kind} {r v : Bytes} (h : LongBody k r v) {buf : Bytes} {e : Nat} {q : Byte}
    (hb : buf.take e = q :: r) (i : Nat) (w : Writer) (hw : w.plan = []) :
    writeSegment k buf e i w = ({ w with out := w.out ++ v }, .ok ()) := by
  cases k with
  | raw =>
    obtain ⟨h1, rfl⟩ := h.toRaw rfl
    simp only [writeSegment, hb, List.drop_succ_cons, List.drop_zero, Writer.writeAll, hw]
  | str =>
    have := h.parser q []
    simp only [Kind.parser] at this
    simp only [writeSegment, hb, List.cons_append, this, Writer.writeAll, hw]

/-! ### Boundaries -/

theorem isLeading_iff (c : Byte) : isLeading c = true ↔ c.toNat < 0x80 ∨ 0xC0 ≤ c.toNat := by
  simp only [isLeading, Bool.or_eq_true, decide_eq_true_eq, byte_lt, ge_iff_le, byte_le]
  exact Iff.rfl

theorem isLeading_small {c : Byte} (h : c.toNat < 0x80) : isLeading c = true := (isLeading_iff c).mpr (.inl h)

/-- A unit starts with a leading byte; a unit that does not start with a backslash has only continuation bytes
behind the first. -/
theorem LongUnit.shape {k : Kind} {u o : Bytes} (h : LongUnit k u o) :
    ∃ c cs, u = c :: cs ∧ isLeading c = true ∧ (c ≠ 92 → cs.length ≤ 3 ∧ ∀ x ∈ cs, isLeading x = false) := by
  cases h with
  | char _ ch hp =>
    obtain ⟨c, cs, e, hc, hcs, hl, _⟩ := enc_shape ch
    refine ⟨c, cs, e, (isLeading_iff c).mpr hc, fun _ => ⟨hl, fun x hx => ?_⟩⟩
    have := hcs x hx
    rw [Bool.eq_false_iff]
    intro hh
    rw [isLeading_iff] at hh
    omega
  | escRaw e x he => exact ⟨_, _, rfl, by decide, fun h => absurd rfl h⟩
  | escStr e x he => exact ⟨_, _, rfl, by decide, fun h => absurd rfl h⟩
  | uniRaw a b c d w hx => exact ⟨_, _, rfl, by decide, fun h => absurd rfl h⟩
  | uniStr a b c d ch hx => exact ⟨_, _, rfl, by decide, fun h => absurd rfl h⟩

theorem LongBody.head {k : Kind} {r v : Bytes} (h : LongBody k r v) : ∀ c, r.head? = some c → isLeading c = true := by
  cases h with
  | nil => intro c hc; simp at hc
  | cons u o r v hu _ =>
    obtain ⟨c, cs, rfl, hl, _⟩ := hu.shape
    intro x hx
    simp only [List.cons_append, List.head?_cons, Option.some.injEq] at hx
    rw [← hx]; exact hl

/-- A body may be split at a leading byte behind bytes without a backslash. -/
theorem LongBody.split {k : Kind} {r v : Bytes} (h : LongBody k r v) : ∀ (j : Nat), j ≤ r.length →
    92 ∉ r.take j → (∀ c, r[j]? = some c → isLeading c = true) →
    ∃ v1 v2, v = v1 ++ v2 ∧ LongBody k (r.take j) v1 ∧ LongBody k (r.drop j) v2 := by
  induction h with
  | nil => intro j _ _ _; refine ⟨[], [], rfl, ?_, ?_⟩ <;> simp <;> exact .nil
  | cons u o r v hu hr ih =>
    intro j hj hb hl
    by_cases h0 : j = 0
    · subst h0
      exact ⟨[], o ++ v, rfl, .nil, .cons _ _ _ _ hu hr⟩
    · obtain ⟨c, cs, e, hc, hcs⟩ := hu.shape
      have hne : c ≠ 92 := by
        intro hh
        apply hb
        obtain ⟨j', rfl⟩ : ∃ j', j = j' + 1 := ⟨j - 1, by omega⟩
        rw [e, List.cons_append, List.take_succ_cons, hh]
        simp
      have hju : u.length ≤ j := by
        apply Classical.byContradiction
        intro hlt
        have hlt : j < u.length := by omega
        obtain ⟨j', rfl⟩ : ∃ j', j = j' + 1 := ⟨j - 1, by omega⟩
        have hjc : j' < cs.length := by rw [e, List.length_cons] at hlt; omega
        have := hl cs[j'] (by
          rw [List.getElem?_append_left hlt, e, List.getElem?_cons_succ, List.getElem?_eq_getElem hjc])
        rw [(hcs hne).2 _ (List.getElem_mem hjc)] at this
        cases this
      obtain ⟨d, rfl⟩ : ∃ d, j = u.length + d := ⟨j - u.length, by omega⟩
      rw [List.take_length_add_append] at hb ⊢
      rw [List.drop_length_add_append]
      obtain ⟨v1, v2, rfl, h1, h2⟩ := ih d (by rw [List.length_append] at hj; omega)
        (fun hm => hb (List.mem_append_right _ hm)) (by
          intro c hc
          apply hl
          rw [List.getElem?_append_right (by omega), show u.length + d - u.length = d by omega]
          exact hc)
      exact ⟨o ++ v1, v2, by rw [List.append_assoc], .cons _ _ _ _ hu h1, h2⟩

/-- A body that starts with a backslash starts with an escape. -/
theorem LongBody.escape {k : Kind} {r v : Bytes} (h : LongBody k (92 :: r) v) :
    (∃ e r' v1 v2, r = e :: r' ∧ e ≠ 117 ∧ e ≠ 85 ∧ e.toNat < 0x80 ∧ v = v1 ++ v2 ∧ LongBody k [92, e] v1 ∧ LongBody k r' v2) ∨
    (∃ a b c d r' v1 v2, r = 117 :: a :: b :: c :: d :: r' ∧ v = v1 ++ v2 ∧
      LongBody k [92, 117, a, b, c, d] v1 ∧ LongBody k r' v2) := by
  generalize hq : 92 :: r = q at h
  cases h with
  | nil => cases hq
  | cons u o r0 v hu hr =>
    have one : LongBody k u o := by
      have := LongBody.cons u o [] [] hu .nil
      rwa [List.append_nil, List.append_nil] at this
    cases hu with
    | char _ ch hp =>
      obtain ⟨c, cs, e, _⟩ := enc_shape ch
      have := enc_plain hp c (by rw [e]; simp)
      rw [e, List.cons_append] at hq
      injection hq with h1 h2
      exact absurd h1.symm this.2.1
    | escRaw e x he =>
      obtain ⟨_, _, _, h1, h2, h3⟩ := escape_mem he
      injection hq with _ hq
      exact .inl ⟨e, r0, _, _, hq, h1, h2, h3, rfl, one, hr⟩
    | escStr e x he =>
      obtain ⟨_, _, _, h1, h2, h3⟩ := escape_mem he
      injection hq with _ hq
      exact .inl ⟨e, r0, _, _, hq, h1, h2, h3, rfl, one, hr⟩
    | uniRaw a b c d w hx =>
      injection hq with _ hq
      exact .inr ⟨a, b, c, d, r0, _, _, hq, rfl, one, hr⟩
    | uniStr a b c d ch hx =>
      injection hq with _ hq
      exact .inr ⟨a, b, c, d, r0, _, _, hq, rfl, one, hr⟩

/-! ### The segment -/

/-- Is there a leading byte at this place of the buffer? -/
def leadAt (buf : Bytes) (j : Nat) : Bool := ((buf[j]?).map isLeading).getD false

theorem backToLeading_spec (buf : Bytes) (m : Nat) :
    (backToLeading buf m = 0 ∨ leadAt buf (backToLeading buf m) = true) ∧
    ∀ j, backToLeading buf m < j → j ≤ m → leadAt buf j = false := by
  induction m with
  | zero => exact ⟨.inl rfl, fun j h1 h2 => by omega⟩
  | succ m ih =>
    simp only [backToLeading]
    by_cases h : ((buf[m + 1]?).map isLeading).getD false = true
    · rw [if_pos h]
      exact ⟨.inr h, fun j h1 h2 => by omega⟩
    · rw [if_neg h]
      refine ⟨ih.1, fun j h1 h2 => ?_⟩
      by_cases hj : j = m + 1
      · subst hj; exact Bool.eq_false_iff.mpr h
      · exact ih.2 j h1 (by omega)

theorem backToLeading_lead {buf : Bytes} {m : Nat} (h : leadAt buf m = true) : backToLeading buf m = m := by
  cases m with
  | zero => rfl
  | succ m => simp only [backToLeading]; unfold leadAt at h; rw [if_pos h]

theorem leadAt_valid {b : Buffer} {l : Bytes} (hv : b.valid = l.take b.nBytes) {j : Nat}
    (hj : j < b.nBytes) : leadAt b.buf j = ((l[j]?).map isLeading).getD false := by
  unfold leadAt
  have : b.valid[j]? = l[j]? := by rw [hv, List.getElem?_take_of_lt hj]
  rw [Buffer.valid, List.getElem?_take_of_lt hj] at this
  rw [this]

/-- The segment chosen by `handle_long` on an incomplete string is a body (or there is none, and there is room to
read more). -/
theorem segment_body {k : Kind} {b : Buffer} {r v t : Bytes} (hok : b.nBytes ≤ b.buf.length) (hlen : 8 ≤ b.buf.length)
    (hr : LongBody k r v) (hv : b.valid = (34 :: (r ++ 34 :: t)).take b.nBytes) (hn : b.nBytes < r.length + 2)
    (hstale : 92 ∈ r → b.nBytes = 3 ∨ b.nBytes = 7 → leadAt b.buf b.nBytes = true) :
    segmentEnd b < b.buf.length ∧
    ((backToLeading b.buf (segmentEnd b) ≤ 1 ∧ b.nBytes < b.buf.length) ∨
     (1 < backToLeading b.buf (segmentEnd b) ∧ backToLeading b.buf (segmentEnd b) ≤ b.nBytes ∧
      ∃ v1 v2, v = v1 ++ v2 ∧ LongBody k (r.take (backToLeading b.buf (segmentEnd b) - 1)) v1 ∧
        LongBody k (r.drop (backToLeading b.buf (segmentEnd b) - 1)) v2)) := by
  have hseg := segmentEnd_le hok
  refine ⟨by omega, ?_⟩
  -- the byte at a place of the buffer
  have hbyte : ∀ j, j + 1 < b.nBytes → b.valid[j + 1]? = r[j]? := by
    intro j hj
    rw [hv, List.getElem?_take_of_lt hj, List.getElem?_cons_succ, List.getElem?_append_left (by omega)]
  have hlead : ∀ j, j + 1 < b.nBytes → leadAt b.buf (j + 1) = ((r[j]?).map isLeading).getD false := by
    intro j hj
    rw [leadAt_valid hv hj, List.getElem?_cons_succ, List.getElem?_append_left (by omega)]
  have hvl := valid_length hok
  cases hbs : b.valid.findIdx? (· == 92) with
  | none =>
    have hno : ∀ x ∈ b.valid, x ≠ 92 := by
      rw [List.findIdx?_eq_none_iff] at hbs
      intro x hx h92
      have := hbs x hx
      rw [h92] at this
      exact absurd this (by decide)
    have hse : segmentEnd b = b.nBytes - 1 := by
      unfold segmentEnd
      rw [hbs]
      simp only
      split <;> omega
    rw [hse]
    obtain ⟨hs1, hs2⟩ := backToLeading_spec b.buf (b.nBytes - 1)
    have hle := backToLeading_le b.buf (b.nBytes - 1)
    revert hs1 hs2 hle
    generalize backToLeading b.buf (b.nBytes - 1) = i
    intro hs1 hs2 hle
    by_cases hi : 1 < i
    · right
      refine ⟨hi, by omega, ?_⟩
      obtain ⟨i, rfl⟩ : ∃ i', i = i' + 1 := ⟨i - 1, by omega⟩
      simp only [Nat.add_sub_cancel]
      apply hr.split i (by omega)
      · intro hm
        obtain ⟨p, hp⟩ := List.mem_iff_getElem?.mp hm
        have hpl : p < i := by
          have := (List.getElem?_eq_some_iff.mp hp).1
          rw [List.length_take] at this; omega
        rw [List.getElem?_take_of_lt hpl] at hp
        rw [← hbyte p (by omega)] at hp
        exact hno 92 (List.mem_of_getElem? hp) rfl
      · intro c hc
        rcases hs1 with hs1 | hs1
        · omega
        · rw [hlead i (by omega), hc] at hs1
          exact hs1
    · left
      refine ⟨by omega, ?_⟩
      apply Classical.byContradiction
      intro hfull
      cases hr with
      | nil => simp at hn; omega
      | cons u o r v hu hr =>
        obtain ⟨c, cs, e, hc, hcs⟩ := hu.shape
        have hc0 := hbyte 0 (by omega)
        rw [e, List.cons_append, List.getElem?_cons_zero] at hc0
        have hne : c ≠ 92 := hno c (List.mem_of_getElem? hc0)
        have hl3 := (hcs hne).1
        have hul : u.length = cs.length + 1 := by rw [e]; rfl
        rw [List.length_append] at hn
        -- the byte behind the first character is a leading byte
        have h4 := hlead u.length (by omega)
        rw [hs2 _ (by omega) (by omega), List.getElem?_append_right (Nat.le_refl _), Nat.sub_self] at h4
        cases r with
        | nil => simp at hn; omega
        | cons x r =>
          have := hr.head x rfl
          simp [this] at h4
  | some bs =>
    have hlt := findIdx?_lt hbs
    rw [List.findIdx?_eq_some_iff_getElem] at hbs
    obtain ⟨_, h92, hbefore⟩ := hbs
    have h92 : b.valid[bs]? = some 92 := by
      rw [List.getElem?_eq_getElem hlt]
      simpa using h92
    -- not the quote
    have hbs0 : bs ≠ 0 := by
      intro h0
      subst h0
      rw [hv, List.getElem?_take_of_lt (by omega)] at h92
      simp at h92
    obtain ⟨j, rfl⟩ : ∃ j, bs = j + 1 := ⟨bs - 1, by omega⟩
    rw [hvl] at hlt
    rw [hbyte j hlt] at h92
    have hbs : b.valid.findIdx? (· == 92) = some (j + 1) := by
      rw [List.findIdx?_eq_some_iff_getElem]
      exact ⟨by omega, by assumption, hbefore⟩
    by_cases hj : 0 < j
    · -- the segment before the backslash
      have hse : segmentEnd b = j + 1 := by
        unfold segmentEnd; rw [hbs]; simp only; rw [if_pos (by omega)]
      have hl : leadAt b.buf (j + 1) = true := by rw [hlead j hlt, h92]; rfl
      rw [hse, backToLeading_lead hl]
      right
      refine ⟨by omega, by omega, ?_⟩
      simp only [Nat.add_sub_cancel]
      apply hr.split j (by omega)
      · intro hm
        obtain ⟨p, hp⟩ := List.mem_iff_getElem?.mp hm
        have hpl : p < j := by
          have := (List.getElem?_eq_some_iff.mp hp).1
          rw [List.length_take] at this; omega
        rw [List.getElem?_take_of_lt hpl] at hp
        rw [← hbyte p (by omega)] at hp
        obtain ⟨hpv, hp'⟩ := List.getElem?_eq_some_iff.mp hp
        have := hbefore (p + 1) (by omega)
        simp [hp'] at this
      · intro c hc
        rw [h92] at hc
        injection hc with hc
        rw [← hc]; decide
    · -- the escape at the start
      have hj0 : j = 0 := by omega
      subst hj0
      have hr92 : ∃ r', r = 92 :: r' := by
        cases r with
        | nil => simp at h92
        | cons x r' =>
          simp only [List.getElem?_cons_zero, Option.some.injEq] at h92
          exact ⟨r', by rw [h92]⟩
      obtain ⟨r', rfl⟩ := hr92
      have hl1 : leadAt b.buf (0 + 1) = true := by rw [hlead 0 hlt]; rfl
      have hse : segmentEnd b = if b.nBytes < 3 then 1 else
          match (b.buf[2]? : Option Byte) with
          | some c => if c ≠ 117 ∧ c ≠ 85 then 3 else if b.nBytes < 7 then 1 else 7
          | none => 1 := by
        unfold segmentEnd; rw [hbs]; simp only
        rw [if_neg (by omega)]
        rfl
      by_cases h3 : b.nBytes < 3
      · rw [hse, if_pos h3, backToLeading_lead hl1]
        left; exact ⟨Nat.le_refl _, by omega⟩
      · rw [if_neg h3] at hse
        have hb2 : b.buf[2]? = r'[0]? := by
          have := hbyte 1 (by omega)
          rw [Buffer.valid, List.getElem?_take_of_lt (by omega), List.getElem?_cons_succ] at this
          exact this
        -- a leading byte behind a complete escape
        have hbehind : ∀ (p q : Bytes) (v2 : Bytes), 92 :: r' = p ++ q → LongBody k q v2 → p.length + 1 ≤ b.nBytes →
            (b.nBytes = p.length + 1 → b.nBytes = 3 ∨ b.nBytes = 7) → leadAt b.buf (p.length + 1) = true := by
          intro p q v2 hpq hq hle hor
          by_cases heq : b.nBytes = p.length + 1
          · rw [← heq]; exact hstale (by simp) (hor heq)
          · rw [hlead p.length (by omega), hpq, List.getElem?_append_right (Nat.le_refl _), Nat.sub_self]
            cases q with
            | nil =>
              have := congrArg List.length hpq
              simp only [List.append_nil] at this
              omega
            | cons x q => simp [hq.head x rfl]
        rcases hr.escape with ⟨e, q, v1, v2, rfl, he1, he2, he3, hvv, h1, h2⟩ | ⟨x1, x2, x3, x4, q, v1, v2, rfl, hvv, h1, h2⟩
        · rw [hb2, List.getElem?_cons_zero] at hse
          simp only at hse
          rw [if_pos ⟨he1, he2⟩] at hse
          have hl3 := hbehind [92, e] q v2 rfl h2 (by simp; omega) (by simp; omega)
          simp only [List.length_cons, List.length_nil] at hl3
          rw [hse, backToLeading_lead hl3]
          right
          exact ⟨by omega, by omega, v1, v2, hvv, h1, h2⟩
        · rw [hb2, List.getElem?_cons_zero] at hse
          simp only at hse
          rw [if_neg (by simp)] at hse
          by_cases h7 : b.nBytes < 7
          · rw [hse, if_pos h7, backToLeading_lead hl1]
            left; exact ⟨Nat.le_refl _, by omega⟩
          · rw [if_neg h7] at hse
            have hl7 := hbehind [92, 117, x1, x2, x3, x4] q v2 rfl h2 (by simp; omega) (by simp; omega)
            simp only [List.length_cons, List.length_nil] at hl7
            rw [hse, backToLeading_lead hl7]
            right
            exact ⟨by omega, by omega, v1, v2, hvv, h1, h2⟩

/-! ### The loop -/

/-- The buffer once the string is at its start. -/
def startBuf (s : RJ) : Buffer := if s.jidx > 0 then s.b.shift 0 s.jidx else s.b

theorem startBuf_zero {s : RJ} (h : s.jidx = 0) : startBuf s = s.b := by
  unfold startBuf; rw [if_neg (by omega)]

theorem Reader.Clean.ne_fail {k : Nat} {r : Reader} : ¬ Reader.Clean (.fail k :: r) := by simp [Reader.Clean]

/-- `handle_long` writes a complete string. `J` is an invariant of the buffer that keeps a continuation byte from
standing right behind an escape that ends the buffered bytes. -/
theorem handleLong_complete (k : Kind) (s0 : RJ) (t : Bytes) (P : Prop) (J : Buffer → Prop)
    (hstep : ∀ b seg b' n, J b → b.nBytes ≤ b.buf.length → seg ≤ b.nBytes → 8 ≤ b.buf.length →
      (if seg > 1 then b.shift 1 seg else b).readMore = (b', .ok n) → n ≠ 0 → J b')
    (hJ : P → ∀ b, J b → b.reader.pending ≠ [] → b.nBytes = 3 ∨ b.nBytes = 7 → leadAt b.buf b.nBytes = true)
    (hlen : 8 ≤ s0.b.buf.length) (hcl : s0.b.reader.Clean) :
    ∀ (fuel : Nat) (s : RJ) (w : Writer) (m : Nat) (r v : Bytes),
    ((s = s0 ∧ s0.Sync ∧ m = 0) ∨ LongInv s0 s m) → s.rest = 34 :: (r ++ 34 :: t) → LongBody k r v → (92 ∈ r → P) →
    J (startBuf s) → w.plan = [] → s.b.reader.size < fuel →
    ∃ s', handleLong k fuel s w = ((s', { w with out := w.out ++ v }), .ok ()) ∧ s0.Moved s' (m + (r.length + 2)) := by
  intro fuel
  induction fuel with
  | zero => intro s w m r v _ _ _ _ _ _ h; omega
  | succ fuel ih =>
    intro s w m r v hs hrest hr h92 hJs hw hfuel
    have hsync : s.Sync := by
      rcases hs with ⟨rfl, h, _⟩ | h
      · exact h
      · exact ⟨h.ok, h.jlen, by rw [h.jidx]; exact Nat.zero_le _⟩
    have hjd : s.jdata = s.rest.take (s.b.nBytes - s.jidx) := by
      have h1 := jdata_length hsync
      have h2 := rest_eq hsync
      rw [h2, ← h1, List.take_left]
    have hp := hr.parser 34 t
    rw [← hrest] at hp
    obtain ⟨_, hle, hp1, hp2⟩ := k.parser_prefix _ _ _ hp
    rw [handleLong_succ, hjd]
    by_cases hdone : r.length + 2 ≤ s.b.nBytes - s.jidx
    · rw [hp1 _ hdone]
      simp only [Writer.writeAll, hw]
      refine ⟨_, rfl, ?_⟩
      rcases hs with ⟨rfl, h, rfl⟩ | h
      · rw [Nat.zero_add]; exact Moved.inside h (by omega)
      · exact h.moved (by omega) (by have := h.jidx; omega)
    · obtain ⟨e, hpe, hret⟩ := hp2 _ (Nat.lt_of_not_le hdone)
      rw [hpe]
      simp only [Nat.add_zero, hret, Bool.not_true, Bool.false_eq_true, if_false]
      -- the string is at the start of the buffer
      have hinv : LongInv s0 (if s.jidx > 0 then ({ s with b := s.b.shift 0 s.jidx, jidx := s.jidx } : RJ).refresh
          else { s with jidx := s.jidx }) m := by
        rcases hs with ⟨rfl, h, rfl⟩ | h
        · by_cases h0 : s.jidx > 0
          · rw [if_pos h0]
            exact LongInv.ofFrame (s := ({ s with b := s.b.shift 0 s.jidx, jidx := s.jidx } : RJ).refresh)
              (Frame.shift0 h.ok h.idx) rfl rfl
          · rw [if_neg h0]
            refine LongInv.ofFrame (s := { s with jidx := s.jidx }) ?_ h.len (by show s.jidx = 0; omega)
            have : Frame s.b s.b s.jidx s.jidx := Frame.refl h.ok h.idx
            rwa [show s.jidx = 0 by omega] at this ⊢
        · rw [if_neg (by rw [h.jidx]; omega)]
          exact h
      have hst : (if s.jidx > 0 then ({ s with b := s.b.shift 0 s.jidx, jidx := s.jidx } : RJ).refresh
          else { s with jidx := s.jidx }).b = startBuf s := by
        unfold startBuf; split <;> rfl
      have hfr : Frame s.b (startBuf s) s.jidx 0 := by
        unfold startBuf
        by_cases h0 : s.jidx > 0
        · rw [if_pos h0]; exact Frame.shift0 hsync.ok hsync.idx
        · rw [if_neg h0]
          have : Frame s.b s.b s.jidx s.jidx := Frame.refl hsync.ok hsync.idx
          rwa [show s.jidx = 0 by omega] at this ⊢
      have hnb : (startBuf s).nBytes = s.b.nBytes - s.jidx := by
        unfold startBuf
        by_cases h0 : s.jidx > 0
        · rw [if_pos h0, (s.b.shift_spec hsync.ok (Nat.zero_le _)).2.1, Nat.min_eq_left hsync.idx]; omega
        · rw [if_neg h0]; omega
      have hrest2 : (startBuf s).rest 0 = 34 :: (r ++ 34 :: t) := by
        rw [← hrest]; exact hfr.rest
      have hsz := hfr.size
      rw [← hst] at hJs hsz hnb hrest2
      clear hst hfr
      revert hinv hJs hsz hnb hrest2
      generalize (if s.jidx > 0 then ({ s with b := s.b.shift 0 s.jidx, jidx := s.jidx } : RJ).refresh
          else { s with jidx := s.jidx }) = s2
      intro hJs hinv hnb hrest2 hsz
      unfold longRound
      have hl8 : 8 ≤ s2.b.buf.length := by rw [hinv.len]; exact hlen
      have hn : s2.b.nBytes < r.length + 2 := by omega
      have hvl := valid_length hinv.ok
      have hv : s2.b.valid = (34 :: (r ++ 34 :: t)).take s2.b.nBytes := by
        rw [← hrest2]; exact valid_take_rest hinv.ok
      have hpend : s2.b.reader.pending ≠ [] := by
        intro h0
        have := congrArg List.length hrest2
        rw [Buffer.rest, h0] at this
        simp [hvl] at this
        omega
      obtain ⟨hsb, hcase⟩ := segment_body hinv.ok hl8 hr hv hn (fun h => hJ (h92 h) _ hJs hpend)
      rw [if_neg (by omega)]
      have hgen : ∀ (b3 : Buffer) (m' : Nat) (r' v' : Bytes) (w1 : Writer),
          LongInv s0 ⟨b3, b3.nBytes, s2.jidx⟩ m' → b3.rest 0 = 34 :: (r' ++ 34 :: t) → LongBody k r' v' →
          (92 ∈ r' → 92 ∈ r) → b3.nBytes < b3.buf.length → b3.reader = s2.b.reader →
          (∀ b' n, b3.readMore = (b', .ok n) → n ≠ 0 → J b') → w1.plan = [] →
          ∃ s', (match b3.readMore with
            | (b4, .ok n) =>
              if n = 0 then
                (({ s2 with b := b4 }, w1),
                  .err (.fromJiter ({ s2 with b := b4 } : RJ).currentIndex e.type (s.jidx + e.index)))
              else handleLong k fuel ({ s2 with b := b4 } : RJ).refresh w1
            | (b4, .err er) => (({ s2 with b := b4 }, w1), .err er)
            | (b4, .panic) => (({ s2 with b := b4 }, w1), .panic)
            | (b4, .diverge) => (({ s2 with b := b4 }, w1), .diverge)) =
              ((s', { w1 with out := w1.out ++ v' }), Res.ok ()) ∧ s0.Moved s' (m' + (r'.length + 2)) := by
        intro b3 m' r' v' w1 hinv3 hrest3 hr3 hsub hroom hrd hJ3 hw1
        have hread := hinv3.read
        rcases b3.readMore_cases hinv3.ok with ⟨h1, e⟩ | ⟨h1, e⟩ | ⟨q, r', hlt, h1, e⟩ |
          ⟨b', bs, e, hb, hv', hn', ho, hl', hp', hs', hcl', _⟩
        · omega
        · rw [hrd] at h1
          rw [h1] at hpend
          exact absurd rfl hpend
        · have := hinv3.clean hcl
          simp only [h1] at this
          exact absurd this Reader.Clean.ne_fail
        · simp only [e] at hread ⊢
          rw [if_neg (by omega)]
          refine ih _ _ m' r' v' (.inr hread) ?_ hr3 (fun h => h92 (hsub h)) ?_ hw1 ?_
          · show b'.rest 0 = _
            rw [← hrest3, Buffer.rest, Buffer.rest, List.drop_zero, List.drop_zero, hv', hp', List.append_assoc]
          · rw [startBuf_zero rfl]
            exact hJ3 b' bs.length e (by omega)
          · show b'.reader.size < fuel
            have : b3.reader.size = s2.b.reader.size := by rw [hrd]
            omega
      revert hcase hsb
      generalize backToLeading s2.b.buf (segmentEnd s2.b) = seg
      intro hsb hcase
      rcases hcase with ⟨h1, hroom⟩ | ⟨h1, hle1, v1, v2, rfl, hb1, hb2⟩
      · simp only [show ¬ seg > 1 by omega, if_false]
        have := hgen s2.b m r v w (by rw [← hinv.jlen]; exact hinv) hrest2 hr id hroom rfl (by
          intro b' n hrm hn0
          refine hstep s2.b 0 b' n hJs hinv.ok (by omega) hl8 ?_ hn0
          rw [if_neg (by omega)]; exact hrm) hw
        exact this
      · simp only [show seg > 1 from h1, if_true]
        have htake : s2.b.buf.take seg = 34 :: r.take (seg - 1) := by
          have : s2.b.valid.take seg = s2.b.buf.take seg := by
            rw [Buffer.valid, List.take_take, Nat.min_eq_left hle1]
          rw [← this, hv, List.take_take, Nat.min_eq_left hle1]
          obtain ⟨g, rfl⟩ : ∃ g, seg = g + 1 := ⟨seg - 1, by omega⟩
          rw [List.take_succ_cons, Nat.add_sub_cancel, List.take_append_of_le_length (by omega)]
        rw [hb1.write htake _ w hw]
        simp only
        obtain ⟨e1, e2, e3, e4, e5, e6, _⟩ := s2.b.shift_spec hinv.ok (t := 1) (f := seg) (by omega)
        have hinv3 := hinv.shift h1 hle1
        have := hgen (s2.b.shift 1 seg) (m + (seg - 1)) (r.drop (seg - 1)) v2 { w with out := w.out ++ v1 } hinv3 (by
            rw [Buffer.rest, List.drop_zero, e1, e6, List.append_assoc]
            have t1 : s2.b.valid.take 1 = [34] := by
              rw [hv, List.take_take, Nat.min_eq_left (by omega)]; rfl
            have t2 : s2.b.valid.drop seg ++ s2.b.reader.pending = (s2.b.rest 0).drop seg := by
              rw [Buffer.rest, List.drop_zero, List.drop_append_of_le_length (by omega)]
            rw [t1, t2, hrest2]
            obtain ⟨g, rfl⟩ : ∃ g, seg = g + 1 := ⟨seg - 1, by omega⟩
            rw [List.drop_succ_cons, Nat.add_sub_cancel, List.drop_append_of_le_length (by omega)]
            rfl) hb2 (fun h => List.mem_of_mem_drop h) (by
            rw [e2, e4, Nat.min_eq_left hle1]; have := hinv.ok; omega) e6 (by
            intro b' n hrm hn0
            refine hstep s2.b seg b' n hJs hinv.ok (by omega) hl8 ?_ hn0
            rw [if_pos h1]; exact hrm) hw
        obtain ⟨s', h3, h4⟩ := this
        refine ⟨s', h3.trans ?_, ?_⟩
        · simp only [List.append_assoc]
        · have : m + (seg - 1) + ((r.drop (seg - 1)).length + 2) = m + (r.length + 2) := by
            rw [List.length_drop]; omega
          rw [← this]; exact h4

end Verif.RJiter
