import Verif.RJiter.BufferLemmas
import Verif.RJiter.Spec

/-!
# `collect_while`, `skip_spaces`, `collect_count`, `skip_n`
-/

namespace Verif.RJiter


theorem Frame.rest' {b0 b : Buffer} {k0 k : Nat} (h : Frame b0 b k0 k) : b.rest k = b0.rest k0 := h.rest

theorem takeWhile_all {α : Type} {p : α → Bool} {l : List α} (h : ∀ c ∈ l, p c = true) :
    l.takeWhile p = l := by
  induction l with
  | nil => rfl
  | cons a l ih => simp [h a (by simp), ih (fun c hc => h c (by simp [hc]))]

theorem takeWhile_len_le {α : Type} (p : α → Bool) (l : List α) : (l.takeWhile p).length ≤ l.length := by
  induction l with
  | nil => simp
  | cons a l ih => simp only [List.takeWhile_cons]; split <;> simp <;> omega

theorem take_takeWhile_len {α : Type} (p : α → Bool) (l : List α) :
    l.take (l.takeWhile p).length = l.takeWhile p := by
  induction l with
  | nil => rfl
  | cons a l ih => simp only [List.takeWhile_cons]; split <;> simp [ih]

theorem takeWhile_short {α : Type} {p : α → Bool} {l : List α} (m : List α)
    (h : (l.takeWhile p).length < l.length) : (l ++ m).takeWhile p = l.takeWhile p := by
  induction l with
  | nil => simp at h
  | cons a l ih =>
    simp only [List.takeWhile_cons, List.cons_append] at *
    split
    · rename_i hp; simp only [hp, if_true, List.length_cons] at h; rw [ih (by omega)]
    · rfl

theorem takeWhile_full {α : Type} {p : α → Bool} {l : List α}
    (h : ¬ (l.takeWhile p).length < l.length) : ∀ c ∈ l, p c = true := by
  induction l with
  | nil => simp
  | cons a l ih =>
    simp only [List.takeWhile_cons] at h
    split at h
    · rename_i hp
      intro c hc
      rcases List.mem_cons.mp hc with rfl | hc
      · exact hp
      · exact ih (by simp at h ⊢; omega) c hc
    · simp at h

theorem takeWhile_pos_append {α : Type} {p : α → Bool} {l m : List α} (h : ∀ c ∈ l, p c = true) :
    (l ++ m).takeWhile p = l ++ m.takeWhile p := by
  induction l with
  | nil => rfl
  | cons a l ih =>
    simp [h a (by simp), ih (fun c hc => h c (by simp [hc]))]

namespace Buffer

/-- Outcome of `collect_while` started in `b0` at `start`. `k` is where `start` is found in the result. -/
def CollectPost (p : Byte → Bool) (start : Nat) (allow : Bool) (b0 : Buffer)
    (out : Buffer × Res (Nat × Nat)) : Prop :=
  ∃ k, Frame b0 out.1 start k ∧
    ((k = start ∧ out.1.nShifted = b0.nShifted ∧ out.1.valid.take start = b0.valid.take start) ∨
      (k = 0 ∧ 0 < start ∧ allow = true)) ∧
    ((∃ e, out.2 = .ok (k, e) ∧ k ≤ e ∧ e ≤ out.1.nBytes ∧
        (out.1.valid.drop k).take (e - k) = (b0.rest start).takeWhile p ∧
        (e = out.1.nBytes → out.1.reader = [])) ∨
     (∃ x, out.2 = .err ⟨.bufferFull, x⟩ ∧ out.1.nBytes = out.1.buf.length ∧
        (∀ c ∈ out.1.valid.drop k, p c = true) ∧ (allow = true → k = 0)) ∨
     (∃ kd x, out.2 = .err ⟨.io kd, x⟩ ∧ ¬ b0.reader.Clean))

theorem collectWhileLoop_spec (p : Byte → Bool) (start : Nat) (allow : Bool) (b0 : Buffer) :
    ∀ (fuel : Nat) (b : Buffer) (i cur : Nat) (shifted : Bool),
      Frame b0 b start cur → cur ≤ i → i ≤ b.nBytes →
      (∀ c ∈ (b.valid.drop cur).take (i - cur), p c = true) →
      (shifted = false → cur = start ∧ b.nShifted = b0.nShifted ∧ b.valid.take start = b0.valid.take start) →
      (shifted = true → cur = 0 ∧ 0 < start ∧ allow = true) →
      b.reader.size < fuel →
      CollectPost p start allow b0 (collectWhileLoop p start allow fuel b i cur shifted) := by
  intro fuel
  induction fuel with
  | zero => intro b i cur shifted _ _ _ _ _ _ h; omega
  | succ fuel ih =>
    intro b i cur shifted hf hci hin hall hns hsh hfuel
    have hvl : b.valid.length = b.nBytes := valid_length hf.ok
    -- the scan
    have hscan_le : b.scan p i ≤ b.nBytes := by
      have := takeWhile_len_le p (b.valid.drop i)
      simp only [scan, List.length_drop, hvl] at *; omega
    have hge : i ≤ b.scan p i := by simp only [scan]; omega
    -- all bytes up to the scan position are accepted
    have hsplit : b.valid.drop cur =
        (b.valid.drop cur).take (i - cur) ++ b.valid.drop i := by
      have := (List.take_append_drop (i - cur) (b.valid.drop cur)).symm
      rw [List.drop_drop, show cur + (i - cur) = i by omega] at this
      exact this
    have hrest : b0.rest start = (b.valid.drop cur).take (i - cur) ++ (b.valid.drop i ++ b.reader.pending) := by
      rw [← hf.rest', rest]
      conv => lhs; rw [hsplit]
      simp
    have htw : (b0.rest start).takeWhile p =
        (b.valid.drop cur).take (i - cur) ++ (b.valid.drop i ++ b.reader.pending).takeWhile p := by
      rw [hrest, takeWhile_pos_append hall]
    have hkpos : (cur = start ∧ b.nShifted = b0.nShifted ∧ b.valid.take start = b0.valid.take start) ∨ (cur = 0 ∧ 0 < start ∧ allow = true) := by
      cases shifted with
      | false => exact .inl (hns rfl)
      | true => exact .inr (hsh rfl)
    simp only [collectWhileLoop]
    by_cases hlt : b.scan p i < b.nBytes
    · rw [if_pos hlt]
      refine ⟨cur, hf, hkpos, .inl ⟨_, rfl, by omega, by simpa using hscan_le, ?_, by intro e; simp at e; omega⟩⟩
      rw [htw, takeWhile_short _ (by simp only [List.length_drop, hvl]; simp only [scan] at hlt; omega)]
      simp only
      conv => lhs; rw [hsplit]
      rw [List.take_append]
      have hl1 : ((b.valid.drop cur).take (i - cur)).length = i - cur := by
        simp [hvl]; omega
      rw [List.take_of_length_le (by rw [hl1]; omega), hl1]
      congr 1
      rw [show b.scan p i - cur - (i - cur) = ((b.valid.drop i).takeWhile p).length by
        simp only [scan]; omega]
      exact take_takeWhile_len _ _
    · rw [if_neg hlt]
      have hcur_end : b.scan p i = b.nBytes := by omega
      have hall2 : ∀ c ∈ b.valid.drop cur, p c = true := by
        intro c hc
        rw [hsplit] at hc
        rcases List.mem_append.mp hc with hc | hc
        · exact hall c hc
        · refine takeWhile_full ?_ c hc
          simp only [scan] at hlt
          simp only [List.length_drop, hvl]; omega
      by_cases hfull : b.nBytes ≥ b.buf.length
      · rw [if_pos hfull]
        by_cases hcond : (!allow || shifted || start == 0) = true
        · rw [if_pos hcond]
          refine ⟨cur, hf, hkpos, .inr (.inl ⟨_, rfl, ?_, hall2, ?_⟩)⟩
          · have := hf.ok; simp only; omega
          · intro ha
            cases shifted with
            | true => exact (hsh rfl).1
            | false =>
              simp only [ha, Bool.not_true, Bool.false_or, beq_iff_eq] at hcond
              have := (hns rfl).1; omega
        · rw [if_neg hcond]
          simp only [Bool.or_eq_true, Bool.not_eq_true', beq_iff_eq, not_or, Bool.not_eq_false] at hcond
          obtain ⟨⟨ha, hshf⟩, hst⟩ := hcond
          simp only [Bool.not_eq_true] at hshf
          obtain ⟨rfl, hns'⟩ := hns hshf
          have hf1 : Frame b0 (b.shift 0 cur) cur 0 := hf.trans (.shift0 hf.ok hf.pos)
          have hsp := b.shift_spec hf.ok (Nat.zero_le cur)
          have hf2 : Frame b0 (b.shift 0 cur).readMore.1 cur 0 :=
            hf1.trans (.readMore hf1.ok (Nat.zero_le _))
          have hv1 : (b.shift 0 cur).valid = b.valid.drop cur := by rw [hsp.1]; simp
          have hn1 : (b.shift 0 cur).nBytes = b.nBytes - cur := by have := hf.pos; rw [hsp.2.1]; omega
          rcases (b.shift 0 cur).readMore_cases hf1.ok with ⟨hr, e⟩ | ⟨hr, e⟩ | ⟨q, r', hlt', hr, e⟩ |
            ⟨b', bs, e, hb, hv, hn, ho, hl, hp, hs, hc, hshh, _⟩
          · -- no room although something was shifted out: impossible
            have := hsp.2.2.2.1; have := hf.pos; have := hf.ok; omega
          · rw [e] at hf2 ⊢
            simp only [if_true]
            refine ⟨0, hf2, .inr ⟨rfl, by omega, ha⟩, .inl ⟨_, rfl, Nat.zero_le _, Nat.le_refl _, ?_, fun _ => hr⟩⟩
            have : b0.rest cur = (b.shift 0 cur).valid := by
              rw [← hf1.rest', rest, hr]; simp [Reader.pending]
            simp only [this, Nat.sub_zero, List.drop_zero]
            rw [takeWhile_all (by rw [hv1]; exact hall2), List.take_of_length_le (by rw [valid_length hf1.ok]; omega)]
          · rw [e] at hf2 ⊢
            simp only
            refine ⟨0, hf2, .inr ⟨rfl, by omega, ha⟩, .inr (.inr ⟨_, _, rfl, ?_⟩)⟩
            intro hcl
            have := hf1.clean hcl
            rw [hr] at this; exact this
          · rw [e] at hf2 ⊢
            simp only
            rw [if_neg (by omega)]
            have hpos := hf.pos
            apply ih b' _ 0 true hf2 (Nat.zero_le _)
            · omega
            · rw [hv, List.drop_zero]
              have hvl1 : (b.shift 0 cur).valid.length = b.nBytes - cur := by
                rw [valid_length hf1.ok, hn1]
              rw [List.take_append_of_le_length (by omega), List.take_of_length_le (by omega), hv1]
              exact hall2
            · simp
            · intro _; exact ⟨rfl, by omega, ha⟩
            · rw [hsp.2.2.2.2.2.1] at hs; omega
      · rw [if_neg hfull]
        have hf2 : Frame b0 b.readMore.1 start cur := hf.trans (.readMore hf.ok hf.pos)
        rcases b.readMore_cases hf.ok with ⟨hr, e⟩ | ⟨hr, e⟩ | ⟨q, r', hlt', hr, e⟩ |
            ⟨b', bs, e, hb, hv, hn, ho, hl, hp, hs, hc, hshh, _⟩
        · omega
        · rw [e]
          simp only [if_true]
          refine ⟨cur, hf, hkpos, .inl ⟨_, rfl, hf.pos, Nat.le_refl _, ?_, fun _ => hr⟩⟩
          have : b0.rest start = b.valid.drop cur := by
            rw [← hf.rest', rest, hr]; simp [Reader.pending]
          rw [this, takeWhile_all hall2, List.take_of_length_le (by simp [hvl])]
        · rw [e] at hf2 ⊢
          simp only
          refine ⟨cur, hf2, ?_, .inr (.inr ⟨_, _, rfl, ?_⟩)⟩
          · rcases hkpos with h | h
            · exact .inl h
            · exact .inr h
          · intro hcl
            have := hf.clean hcl
            rw [hr] at this; exact this
        · rw [e] at hf2 ⊢
          simp only
          rw [if_neg (by omega)]
          have hpos := hf.pos
          apply ih b' _ cur shifted hf2 (by omega)
          · omega
          · rw [hv, List.drop_append_of_le_length (by omega), hcur_end,
              List.take_append_of_le_length (by simp [hvl]), List.take_of_length_le (by simp [hvl])]
            exact hall2
          · intro h
            refine ⟨(hns h).1, by have := (hns h).2.1; omega, ?_⟩
            rw [hv, List.take_append_of_le_length (by have := (hns h).1; omega), (hns h).2.2]
          · exact hsh
          · omega

theorem collectWhile_spec (p : Byte → Bool) (start : Nat) (allow : Bool) (b : Buffer) (fuel : Nat)
    (h : b.nBytes ≤ b.buf.length) (hk : start ≤ b.nBytes) (hfuel : b.reader.size < fuel) :
    CollectPost p start allow b (b.collectWhile fuel p start allow) := by
  apply collectWhileLoop_spec p start allow b fuel b start start false (.refl h hk) (Nat.le_refl _) hk
  · simp
  · intro _; exact ⟨rfl, rfl, rfl⟩
  · simp
  · exact hfuel

/-! ### `skip_spaces` -/

theorem rest_length (b : Buffer) (h : b.nBytes ≤ b.buf.length) (k : Nat) :
    (b.rest k).length = b.nBytes - k + b.reader.pending.length := by
  simp [rest, valid_length h]

theorem dropWhile_eq_drop {α : Type} (p : α → Bool) (l : List α) :
    l.dropWhile p = l.drop (l.takeWhile p).length := by
  induction l with
  | nil => rfl
  | cons a l ih =>
    simp only [List.dropWhile_cons, List.takeWhile_cons]
    split
    · rw [ih]; simp
    · simp

theorem dropWhile_pos_append {α : Type} {p : α → Bool} {l m : List α} (h : ∀ c ∈ l, p c = true) :
    (l ++ m).dropWhile p = m.dropWhile p := by
  induction l with
  | nil => rfl
  | cons a l ih =>
    simp [h a (by simp), ih (fun c hc => h c (by simp [hc]))]

/-- Outcome of `skip_spaces(pos)`. -/
structure SkipPost (pos : Nat) (b0 b : Buffer) : Prop where
  ok : b.nBytes ≤ b.buf.length
  len : b.buf.length = b0.buf.length
  le : pos ≤ b.nBytes
  before : b.valid.take pos = b0.valid.take pos
  rest : b.rest pos = (b0.rest pos).dropWhile isAsciiWs
  idx : b.nShifted + (b.rest pos).length = b0.nShifted + (b0.rest pos).length
  size : b.reader.size ≤ b0.reader.size
  clean : b0.reader.Clean → b.reader.Clean
  eof : b.nBytes = pos → b.reader = []

theorem takeWhile_ge {α : Type} {p : α → Bool} {l : List α} {n : Nat} (h : ∀ c ∈ l.take n, p c = true)
    (hn : n ≤ l.length) : n ≤ (l.takeWhile p).length := by
  induction l generalizing n with
  | nil => simpa using hn
  | cons a l ih =>
    cases n with
    | zero => omega
    | succ n =>
      simp only [List.take_succ_cons, List.mem_cons] at h
      simp only [List.takeWhile_cons, h a (.inl rfl), if_true, List.length_cons]
      have := ih (fun c hc => h c (.inr hc)) (by simpa using hn)
      omega

theorem skipSpacesLoop_spec (pos fuel0 : Nat) : ∀ (fuel : Nat) (b : Buffer), b.nBytes ≤ b.buf.length →
    pos ≤ b.nBytes → pos < b.buf.length → b.reader.size < fuel0 →
    b.reader.size + (if b.nBytes = b.buf.length then 1 else 0) < fuel →
    ∃ b' r, skipSpacesLoop fuel0 pos fuel b = (b', r) ∧
      ((r = .ok () ∧ SkipPost pos b b') ∨ (∃ kd x, r = .err ⟨.io kd, x⟩ ∧ ¬ b.reader.Clean)) := by
  intro fuel
  induction fuel with
  | zero => intro b _ _ _ _ h; omega
  | succ fuel ih =>
    intro b h hp hpl hf0 hf
    have hpost := collectWhile_spec isAsciiWs pos false b fuel0 h hp hf0
    rw [skipSpacesLoop]
    rcases hx : b.collectWhile fuel0 isAsciiWs pos false with ⟨b1, r⟩
    rw [hx] at hpost
    obtain ⟨k, hfr, hk, hcase⟩ := hpost
    simp only at hfr hk hcase
    rcases hk with ⟨rfl, hns, htk⟩ | ⟨_, _, hk⟩
    case inr => simp at hk
    have hv1 : b1.valid.length = b1.nBytes := valid_length hfr.ok
    rcases hcase with ⟨e, rfl, hke, hen, hsl, hend⟩ | ⟨x, rfl, hfull, hall, _⟩ | ⟨kd, x, rfl, hcl⟩
    · -- found the end of the spaces
      refine ⟨_, _, rfl, .inl ⟨rfl, ?_⟩⟩
      have hlen : ((b.rest k).takeWhile isAsciiWs).length = e - k := by
        rw [← hsl]; simp [hv1]; omega
      have hrest1 : b1.rest k = b.rest k := hfr.rest
      have hdw : (b.rest k).dropWhile isAsciiWs = b1.valid.drop e ++ b1.reader.pending := by
        rw [dropWhile_eq_drop, hlen, ← hrest1, rest,
          List.drop_append_of_le_length (by simp [hv1]; omega), List.drop_drop,
          show k + (e - k) = e by omega]
      by_cases hgt : e > k
      · rw [if_pos hgt]
        have hs := b1.shift_spec hfr.ok hke
        have hf2 : Frame b1 (b1.shift k e) e k := .shift hfr.ok hke hen
        have hrest2 : (b1.shift k e).rest k = b1.rest e := hf2.rest
        refine ⟨hf2.ok, by rw [hf2.len, hfr.len], hf2.pos, ?_, ?_, ?_, ?_, ?_, ?_⟩
        · rw [hs.1, List.take_append_of_le_length (by simp [hv1]; omega), List.take_take, Nat.min_self, htk]
        · rw [hrest2, hdw]; rfl
        · have h1 := hf2.idx
          have h2 := congrArg List.length hrest2
          rw [rest_length _ hfr.ok] at h2
          have h3 := congrArg List.length hrest1
          rw [rest_length _ hfr.ok] at h3
          omega
        · exact Nat.le_trans hf2.size hfr.size
        · exact fun hc => hf2.clean (hfr.clean hc)
        · intro hne
          rw [hs.2.1] at hne
          rw [hs.2.2.2.2.2.1]; exact hend (by omega)
      · rw [if_neg hgt]
        have hek : e = k := by omega
        subst hek
        refine ⟨hfr.ok, hfr.len, hfr.pos, htk, ?_, ?_, hfr.size, hfr.clean, ?_⟩
        · rw [hdw]; rfl
        · rw [hrest1]; omega
        · intro hne; exact hend hne.symm
    · -- the buffer is full of spaces
      simp only [if_true]
      have hs := b1.shift_spec hfr.ok hfr.pos
      have hf2 : Frame b1 (b1.shift k b1.nBytes) b1.nBytes k := .shift hfr.ok hfr.pos (Nat.le_refl _)
      have hn2 : (b1.shift k b1.nBytes).nBytes = k := by rw [hs.2.1]; have := hfr.pos; omega
      have hsz := hfr.total
      have hl1 := hfr.len
      have hl2 := hf2.len
      have hr2 : (b1.shift k b1.nBytes).reader = b1.reader := hs.2.2.2.2.2.1
      have hsz' := hfr.size
      obtain ⟨b', r, e, hpost⟩ := ih (b1.shift k b1.nBytes) hf2.ok hf2.pos (by omega) (by rw [hr2]; omega)
        (by
          rw [if_neg (by omega), hr2]
          split at hf <;> omega)
      refine ⟨b', r, e, ?_⟩
      rcases hpost with ⟨hr, hp2⟩ | ⟨kd, x, hr, hcl⟩
      · left
        refine ⟨hr, ?_⟩
        have hrest1 : b1.rest k = b.rest k := hfr.rest
        have hrest2 : (b1.shift k b1.nBytes).rest k = b1.rest b1.nBytes := hf2.rest
        have hrest3 : b1.rest b1.nBytes = b1.reader.pending := by
          rw [rest, List.drop_eq_nil_of_le (by omega)]; rfl
        refine ⟨hp2.ok, by rw [hp2.len]; omega, hp2.le, ?_, ?_, ?_, ?_, ?_, ?_⟩
        · rw [hp2.before, hs.1, List.take_append_of_le_length (by simp [hv1]; have := hfr.pos; omega), List.take_take,
            Nat.min_self, htk]
        · rw [hp2.rest, hrest2, hrest3, ← hrest1, rest, dropWhile_pos_append hall]
        · have h1 := hp2.idx
          have h2 := hf2.idx
          rw [hrest2, hrest3] at h1
          have h3 := congrArg List.length hrest1
          rw [rest_length _ hfr.ok] at h3
          omega
        · have := hp2.size; rw [hr2] at this; omega
        · exact fun hc => hp2.clean (hf2.clean (hfr.clean hc))
        · exact hp2.eof
      · right
        exact ⟨kd, x, hr, fun hc => hcl (hf2.clean (hfr.clean hc))⟩
    · refine ⟨b1, .err ⟨.io kd, x⟩, ?_, .inr ⟨kd, x, rfl, hcl⟩⟩
      simp

theorem skipSpaces_spec (pos fuel : Nat) (b : Buffer) (h : b.nBytes ≤ b.buf.length) (hp : pos ≤ b.nBytes)
    (hl : pos < b.buf.length) (hf : b.reader.size + 2 ≤ fuel) :
    ∃ b' r, b.skipSpaces fuel pos = (b', r) ∧
      ((r = .ok () ∧ SkipPost pos b b') ∨ (∃ kd x, r = .err ⟨.io kd, x⟩ ∧ ¬ b.reader.Clean)) :=
  skipSpacesLoop_spec pos fuel fuel b h hp hl (by omega) (by split <;> omega)

/-! ### `collect_count` -/

/-- Outcome of `collect_count` started in `b0` at `start`. `k` is where `start` is found in the result. -/
def CountPost (count start : Nat) (allow : Bool) (b0 : Buffer) (out : Buffer × Res (Nat × Nat)) : Prop :=
  ∃ k, Frame b0 out.1 start k ∧
    ((k = start ∧ out.1.nShifted = b0.nShifted) ∨ (k = 0 ∧ 0 < start ∧ allow = true)) ∧
    ((∃ e, out.2 = .ok (k, e) ∧ k ≤ e ∧ e ≤ out.1.nBytes ∧
        (out.1.valid.drop k).take (e - k) = (b0.rest start).take count) ∨
     (∃ x, out.2 = .err ⟨.bufferFull, x⟩ ∧ k = start ∧ out.1.nBytes = out.1.buf.length ∧
        out.1.nBytes < start + count ∧ (allow = true → out.1.buf.length < count)) ∨
     (∃ kd x, out.2 = .err ⟨.io kd, x⟩ ∧ ¬ b0.reader.Clean))

theorem collectCountLoop_spec (count start : Nat) (allow : Bool) (b0 : Buffer) :
    ∀ (fuel : Nat) (b : Buffer) (cur : Nat) (shifted : Bool),
      Frame b0 b start cur →
      (shifted = false → cur = start ∧ b.nShifted = b0.nShifted) →
      (shifted = true → cur = 0 ∧ 0 < start ∧ allow = true ∧ count ≤ b.buf.length) →
      b.reader.size < fuel →
      CountPost count start allow b0 (collectCountLoop count allow fuel b (cur + count) cur shifted) := by
  intro fuel
  induction fuel with
  | zero => intro b cur shifted _ _ _ h; omega
  | succ fuel ih =>
    intro b cur shifted hf hns hsh hfuel
    have hvl : b.valid.length = b.nBytes := valid_length hf.ok
    have hpos := hf.pos
    have hok := hf.ok
    have hrest : b.rest cur = b0.rest start := hf.rest
    have hkpos : (cur = start ∧ b.nShifted = b0.nShifted) ∨ (cur = 0 ∧ 0 < start ∧ allow = true) := by
      cases shifted with
      | false => exact .inl (hns rfl)
      | true => exact .inr ⟨(hsh rfl).1, (hsh rfl).2.1, (hsh rfl).2.2.1⟩
    simp only [collectCountLoop]
    by_cases hge : b.nBytes ≥ cur + count
    · rw [if_pos hge]
      refine ⟨cur, hf, hkpos, .inl ⟨_, rfl, by omega, hge, ?_⟩⟩
      rw [← hrest, rest, show cur + count - cur = count by omega,
        List.take_append_of_le_length (by simp [hvl]; omega)]
    · rw [if_neg hge]
      by_cases hfull : b.nBytes ≥ b.buf.length
      · rw [if_pos hfull]
        by_cases hcond : (!allow || shifted || cur == 0) = true
        · rw [if_pos hcond]
          have hnsh : shifted = false := by
            cases shifted with
            | false => rfl
            | true => have := hsh rfl; omega
          obtain ⟨rfl, hns'⟩ := hns hnsh
          refine ⟨cur, hf, .inl ⟨rfl, hns'⟩, .inr (.inl ⟨_, rfl, rfl, by simp only; omega, by simp only; omega, ?_⟩)⟩
          intro ha
          simp only [ha, hnsh, Bool.not_true, Bool.false_or, beq_iff_eq] at hcond
          simp only; omega
        · rw [if_neg hcond]
          simp only [Bool.or_eq_true, Bool.not_eq_true', beq_iff_eq, not_or, Bool.not_eq_false] at hcond
          obtain ⟨⟨ha, hshf⟩, hst⟩ := hcond
          simp only [Bool.not_eq_true] at hshf
          obtain ⟨rfl, hns'⟩ := hns hshf
          by_cases hbig : count > b.buf.length
          · rw [if_pos hbig]
            exact ⟨cur, hf, .inl ⟨rfl, hns'⟩, .inr (.inl ⟨_, rfl, rfl, by simp only; omega, by simp only; omega, fun _ => hbig⟩)⟩
          · rw [if_neg hbig]
            have hf1 : Frame b0 (b.shift 0 cur) cur 0 := hf.trans (.shift0 hf.ok hf.pos)
            have hsp := b.shift_spec hf.ok (Nat.zero_le cur)
            have hf2 : Frame b0 (b.shift 0 cur).readMore.1 cur 0 :=
              hf1.trans (.readMore hf1.ok (Nat.zero_le _))
            have hn1 : (b.shift 0 cur).nBytes = b.nBytes - cur := by rw [hsp.2.1]; omega
            rcases (b.shift 0 cur).readMore_cases hf1.ok with ⟨hr, e⟩ | ⟨hr, e⟩ | ⟨q, r', hlt', hr, e⟩ |
              ⟨b', bs, e, hb, hv, hn, ho, hl, hp, hs, hc, hshh, _⟩
            · have := hsp.2.2.2.1; omega
            · rw [e]
              simp only [if_true]
              refine ⟨0, hf1, .inr ⟨rfl, by omega, ha⟩, .inl ⟨_, rfl, Nat.zero_le _, Nat.le_refl _, ?_⟩⟩
              have : b0.rest cur = (b.shift 0 cur).valid := by
                rw [← hf1.rest', rest, hr]; simp [Reader.pending]
              have hvl1 := valid_length hf1.ok
              simp only [this, Nat.sub_zero, List.drop_zero]
              rw [List.take_of_length_le (by omega), List.take_of_length_le (by omega)]
            · rw [e] at hf2 ⊢
              simp only
              refine ⟨0, hf2, .inr ⟨rfl, by omega, ha⟩, .inr (.inr ⟨_, _, rfl, ?_⟩)⟩
              intro hcl
              have := hf1.clean hcl
              rw [hr] at this; exact this
            · rw [e] at hf2 ⊢
              simp only
              rw [if_neg (by omega), show cur + count - cur = 0 + count by omega]
              apply ih b' 0 true hf2
              · simp
              · intro _; exact ⟨rfl, by omega, ha, by have := hsp.2.2.2.1; omega⟩
              · rw [hsp.2.2.2.2.2.1] at hs; omega
      · rw [if_neg hfull]
        have hf2 : Frame b0 b.readMore.1 start cur := hf.trans (.readMore hf.ok hf.pos)
        rcases b.readMore_cases hf.ok with ⟨hr, e⟩ | ⟨hr, e⟩ | ⟨q, r', hlt', hr, e⟩ |
            ⟨b', bs, e, hb, hv, hn, ho, hl, hp, hs, hc, hshh, _⟩
        · omega
        · rw [e]
          simp only [if_true]
          refine ⟨cur, hf, hkpos, .inl ⟨_, rfl, hf.pos, Nat.le_refl _, ?_⟩⟩
          have : b0.rest start = b.valid.drop cur := by
            rw [← hf.rest', rest, hr]; simp [Reader.pending]
          rw [this, List.take_of_length_le (by simp [hvl]), List.take_of_length_le (by simp [hvl]; omega)]
        · rw [e] at hf2 ⊢
          simp only
          refine ⟨cur, hf2, hkpos, .inr (.inr ⟨_, _, rfl, ?_⟩)⟩
          intro hcl
          have := hf.clean hcl
          rw [hr] at this; exact this
        · rw [e] at hf2 ⊢
          simp only
          rw [if_neg (by omega)]
          apply ih b' cur shifted hf2
          · intro h; exact ⟨(hns h).1, by have := (hns h).2; omega⟩
          · intro h; have := hsh h; exact ⟨this.1, this.2.1, this.2.2.1, by omega⟩
          · omega

theorem collectCount_spec (count start : Nat) (allow : Bool) (b : Buffer) (fuel : Nat)
    (h : b.nBytes ≤ b.buf.length) (hk : start ≤ b.nBytes) (hfuel : b.reader.size < fuel) :
    CountPost count start allow b (b.collectCount fuel count start allow) := by
  apply collectCountLoop_spec count start allow b fuel b start false (.refl h hk)
  · intro _; exact ⟨rfl, rfl⟩
  · simp
  · exact hfuel

/-! ### `skip_n` -/

/-- Outcome of `skip_n` started in `b0` at `start`, after `done` bytes were skipped before. -/
def SkipNPost (count : Nat) (b0 : Buffer) (start : Nat) (out : Buffer × Res (Nat × Nat)) : Prop :=
  (∃ p t, out.2 = .ok (p, t) ∧ p ≤ out.1.nBytes ∧ t = min count (b0.rest start).length ∧
      out.1.nBytes ≤ out.1.buf.length ∧ out.1.buf.length = b0.buf.length ∧
      out.1.rest p = (b0.rest start).drop count ∧ out.1.nShifted + p = b0.nShifted + start + t ∧
      out.1.reader.size ≤ b0.reader.size ∧ (b0.reader.Clean → out.1.reader.Clean)) ∨
  (∃ kd x, out.2 = .err ⟨.io kd, x⟩ ∧ ¬ b0.reader.Clean)

theorem skipNLoop_spec : ∀ (fuel : Nat) (b : Buffer) (remaining cur total : Nat),
    b.nBytes ≤ b.buf.length → cur ≤ b.nBytes → 0 < b.buf.length → b.reader.size < fuel →
    ∃ b' r, skipNLoop fuel b remaining cur total = (b', r) ∧
      ((∃ p t, r = .ok (p, total + t) ∧ p ≤ b'.nBytes ∧ t = min remaining (b.rest cur).length ∧
        b'.nBytes ≤ b'.buf.length ∧ b'.buf.length = b.buf.length ∧
        b'.rest p = (b.rest cur).drop remaining ∧ b'.nShifted + p = b.nShifted + cur + t ∧
        b'.reader.size ≤ b.reader.size ∧ (b.reader.Clean → b'.reader.Clean)) ∨
       (∃ kd x, r = .err ⟨.io kd, x⟩ ∧ ¬ b.reader.Clean)) := by
  intro fuel
  induction fuel with
  | zero => intro b remaining cur total _ _ _ h; omega
  | succ fuel ih =>
    intro b remaining cur total h hc hl hfuel
    have hvl := valid_length h
    have hrl := rest_length b h cur
    simp only [skipNLoop]
    by_cases h0 : remaining = 0
    · rw [if_pos h0]
      exact ⟨_, _, rfl, .inl ⟨cur, 0, rfl, hc, by omega, h, rfl, by simp [h0], by omega, Nat.le_refl _, id⟩⟩
    · rw [if_neg h0]
      by_cases hav : b.nBytes - cur ≥ remaining
      · rw [if_pos hav]
        refine ⟨_, _, rfl, .inl ⟨cur + remaining, remaining, rfl, by omega, by omega, h, rfl, ?_, by omega, Nat.le_refl _, id⟩⟩
        rw [rest, rest, List.drop_append_of_le_length (by simp [hvl]; omega), List.drop_drop]
      · rw [if_neg hav]
        have hcur1 : cur + (b.nBytes - cur) = b.nBytes := by omega
        rw [hcur1]
        -- the state before the read: nothing of the buffer is left
        obtain ⟨b1, cur2, hb1, hcur2, hfr, hroom, hr1, hn2⟩ : ∃ b1 cur2,
            b1 = (if (b.nBytes == b.buf.length) = true then b.shift 0 b.nBytes else b) ∧
            cur2 = (if (b.nBytes == b.buf.length) = true then 0 else b.nBytes) ∧
            Frame b b1 b.nBytes cur2 ∧ b1.nBytes < b1.buf.length ∧ b1.reader = b.reader ∧ b1.nBytes = cur2 := by
          by_cases hfull : (b.nBytes == b.buf.length) = true
          · have hs := b.shift_spec h (Nat.zero_le b.nBytes)
            refine ⟨_, _, rfl, rfl, ?_⟩
            rw [if_pos hfull, if_pos hfull]
            exact ⟨.shift0 h (Nat.le_refl _), by rw [hs.2.1, hs.2.2.2.1]; omega, hs.2.2.2.2.2.1,
              by rw [hs.2.1]; omega⟩
          · refine ⟨_, _, rfl, rfl, ?_⟩
            rw [if_neg hfull, if_neg hfull]
            simp only [beq_iff_eq] at hfull
            exact ⟨.refl h (Nat.le_refl _), by omega, rfl, rfl⟩
        rw [← hb1, ← hcur2]
        have hrest1 : b1.rest cur2 = b.reader.pending := by
          rw [hfr.rest', rest, List.drop_eq_nil_of_le (by omega)]; rfl
        have hrest0 : (b.rest cur).drop remaining =
            b.reader.pending.drop (remaining - (b.nBytes - cur)) := by
          rw [rest, List.drop_append, List.drop_eq_nil_of_le (by simp [hvl]; omega)]
          simp [hvl]
        rcases b1.readMore_cases hfr.ok with ⟨hr, e⟩ | ⟨hr, e⟩ | ⟨q, r', hlt', hr, e⟩ |
            ⟨b', bs, e, hb, hv, hn, ho, hl', hp, hs, hcl, hshh, _⟩
        · omega
        · rw [e]
          simp only [if_true]
          have hp : b.reader.pending = [] := by rw [← hr1, hr]; rfl
          have hidx := hfr.idx
          refine ⟨_, _, rfl, .inl ⟨cur2, b.nBytes - cur, rfl, hfr.pos, ?_, hfr.ok, hfr.len, ?_, by omega, hfr.size, hfr.clean⟩⟩
          · rw [hrl, hp]; simp; omega
          · rw [hrest1, hrest0, hp]; simp
        · rw [e]
          simp only
          exact ⟨_, _, rfl, .inr ⟨_, _, rfl, by rw [← hr1, hr]; exact id⟩⟩
        · have hf2 : Frame b b' b.nBytes cur2 := by
            have := hfr.trans (.readMore hfr.ok hfr.pos)
            rw [e] at this; exact this
          rw [e]
          simp only
          rw [if_neg (by omega)]
          have hpos2 := hf2.pos
          have hlen2 := hf2.len
          obtain ⟨b'', r, e2, hpost⟩ := ih b' (remaining - (b.nBytes - cur)) cur2 (total + (b.nBytes - cur)) ho
            hpos2 (by omega) (by rw [hr1] at hs; omega)
          refine ⟨b'', r, e2, ?_⟩
          have hrest2 : b'.rest cur2 = b.reader.pending := by
            rw [hf2.rest', rest, List.drop_eq_nil_of_le (by omega)]; rfl
          have hidx := hf2.idx
          have hsize := hf2.size
          rcases hpost with ⟨p, t, hr, hple, ht, hok, hlen, hrst, hid, hsz, hcln⟩ | ⟨kd, x, hr, hncl⟩
          · left
            rw [hrest2] at ht hrst
            refine ⟨p, b.nBytes - cur + t, by rw [hr]; congr 2; omega, hple, ?_, hok, by omega, ?_, by omega, by omega,
              fun hh => hcln (hf2.clean hh)⟩
            · rw [hrl, ht]; omega
            · rw [hrst, hrest0]
          · exact .inr ⟨kd, x, hr, fun hh => hncl (hf2.clean hh)⟩

theorem skipN_spec (count start fuel : Nat) (b : Buffer) (h : b.nBytes ≤ b.buf.length)
    (hc : start ≤ b.nBytes) (hl : 0 < b.buf.length) (hf : b.reader.size < fuel) :
    SkipNPost count b start (b.skipN fuel count start) := by
  obtain ⟨b', r, e, hpost⟩ := skipNLoop_spec fuel b count start 0 h hc hl hf
  rw [skipN, e]
  rcases hpost with ⟨p, t, hr, hrest⟩ | h
  · left; exact ⟨p, t, by rw [hr, Nat.zero_add], hrest⟩
  · right; exact h

end Buffer

end Verif.RJiter
