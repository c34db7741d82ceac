import Verif.RJiter.LongSafe
import Verif.RJiter.Keyless
import Verif.RJiter.StrSound

/-!
# `handle_long` on a string with a byte in it that cannot be there
-/

namespace Verif.RJiter

open Buffer RJ Jiter

/-- The byte `x`, with `y` behind it, cannot be in a string: it is a control character, or the backslash of an escape that does not
exist. The type of the error, and the distance from `x` to the byte that the error is at. -/
inductive Wrong : Byte → Bytes → JsonErr → Nat → Prop where
  | control (x : Byte) (y : Bytes) : x.toNat < 32 → Wrong x y .controlCharacterWhileParsingString 0
  | escape (e : Byte) (z : Bytes) : e ≠ 117 → (∀ ch, ¬ Escape e ch) → Wrong 92 (e :: z) .invalidEscape 1

theorem not_escape {e : Byte} (he : ∀ ch, ¬ Escape e ch) :
    ¬ (e = 34 ∨ e = 92 ∨ e = 47 ∨ e = 98 ∨ e = 102 ∨ e = 110 ∨ e = 114 ∨ e = 116) := by
  intro hmem
  simp only [Escape, List.mem_cons, Prod.mk.injEq, List.not_mem_nil, or_false] at he
  rcases hmem with rfl | rfl | rfl | rfl | rfl | rfl | rfl | rfl
  · exact he '"' (by simp)
  · exact he '\\' (by simp)
  · exact he '/' (by simp)
  · exact he '\x08' (by simp)
  · exact he '\x0c' (by simp)
  · exact he '\n' (by simp)
  · exact he '\r' (by simp)
  · exact he '\t' (by simp)

theorem Wrong.raw {x : Byte} {y : Bytes} {ty : JsonErr} {off : Nat} (h : Wrong x y ty off) (i : Nat) (j : Nat) :
    rawString (x :: y.take (j + off)) i = .error (ty, i + off) := by
  cases h with
  | control _ _ hx =>
    have h1 : x ≠ 34 := by rintro rfl; simp at hx
    have h2 : x ≠ 92 := by rintro rfl; simp at hx
    rw [rawString.eq_def]
    simp only
    rw [if_neg h1, if_neg h2, if_pos (by rw [UInt8.lt_iff_toNat_lt]; exact hx)]
    rfl
  | escape e z hu he =>
    rw [List.take_succ_cons, rawString.eq_def]
    simp only
    rw [if_neg (by decide), if_pos trivial, if_neg (not_escape he), if_neg hu]

theorem Wrong.decode {x : Byte} {y : Bytes} {ty : JsonErr} {off : Nat} (h : Wrong x y ty off) (i j f : Nat) (acc : Bytes) :
    decodeLoop (f + 1) (x :: y.take (j + off)) i acc = .error (ty, i + off) := by
  cases h with
  | control _ _ hx =>
    have h1 : x ≠ 34 := by rintro rfl; simp at hx
    have h2 : x ≠ 92 := by rintro rfl; simp at hx
    rw [decodeLoop.eq_def]
    simp only
    rw [if_neg h1, if_neg h2, if_pos (by rw [UInt8.lt_iff_toNat_lt]; exact hx)]
    rfl
  | escape e z hu he =>
    have hn : simpleEscape e = none := by
      have := not_escape he
      simp only [not_or] at this
      simp [simpleEscape, this]
    rw [List.take_succ_cons, decodeLoop.eq_def]
    simp only
    rw [if_neg (by decide), if_pos trivial, hn]
    simp only
    rw [if_neg hu]

theorem decodeLoop_skip {pairs : Bool} {body : Bytes} {s : List Char} (h : StrBody pairs body s) :
    pairs = false → ∀ (t acc : Bytes) (fuel i : Nat), body.length < fuel →
    ∃ f acc', decodeLoop fuel (body ++ t) i acc = decodeLoop (f + 1) t (i + body.length) acc' := by
  intro hpf
  induction h with
  | nil =>
    intro t acc fuel i hf
    obtain ⟨f, rfl⟩ : ∃ f, fuel = f + 1 := ⟨fuel - 1, by omega⟩
    exact ⟨f, acc, rfl⟩
  | char ch r s hp _ ih =>
    intro t acc fuel i hf
    rw [List.length_append] at hf
    obtain ⟨f, rfl⟩ : ∃ f, fuel = (enc ch).length + f := ⟨fuel - (enc ch).length, by omega⟩
    rw [List.append_assoc, decodeLoop_plain _ _ _ _ _ (enc_plain hp)]
    obtain ⟨f', acc', e⟩ := ih t _ f (i + (enc ch).length) (by omega)
    exact ⟨f', acc', by rw [e, List.length_append, Nat.add_assoc]⟩
  | esc e x' r s he _ ih =>
    intro t acc fuel i hf
    obtain ⟨_, h2, h3, _⟩ := escape_mem he
    obtain ⟨f, rfl⟩ : ∃ f, fuel = f + 1 := ⟨fuel - 1, by omega⟩
    simp only [List.length_cons] at hf
    rw [List.cons_append, List.cons_append, decodeLoop.eq_def]
    simp only
    rw [if_neg (by decide), if_pos trivial, h2]
    simp only
    obtain ⟨f', acc', e⟩ := ih t _ f (i + 2) (by omega)
    exact ⟨f', acc', by rw [e]; congr 1; simp; omega⟩
  | uni a b c d ch r s hx _ ih =>
    intro t acc fuel i hf
    obtain ⟨f, rfl⟩ : ∃ f, fuel = f + 1 := ⟨fuel - 1, by omega⟩
    simp only [List.length_cons] at hf
    have hb := char_bound ch
    have hu : unicodeEscape (a :: b :: c :: d :: (r ++ t)) (i + 2) = .ok (enc ch, 4) := by
      unfold unicodeEscape
      rw [parseU4_hex hx]
      simp only
      rw [if_neg (by omega), if_neg (by omega), encodeUtf8_eq]
    simp only [List.cons_append]
    rw [decodeLoop.eq_def]
    simp only
    rw [if_neg (by decide), if_pos trivial, show simpleEscape 117 = none from rfl]
    simp only [if_true]
    rw [hu]
    simp only [List.drop_succ_cons, List.drop_zero]
    obtain ⟨f', acc', e⟩ := ih t _ f (i + 2 + 4) (by omega)
    exact ⟨f', acc', by rw [e]; congr 1; simp; omega⟩
  | pair a b c d a' b' c' d' hi lo ch r s hp => rw [hpf] at hp; cases hp

theorem LongBody.wrong {k : Kind} {r v : Bytes} (h : LongBody k r v) {x : Byte} {y : Bytes} {ty : JsonErr} {off : Nat}
    (hx : Wrong x y ty off) (q : Byte) (j : Nat) :
    k.parser (q :: (r ++ x :: y.take (j + off))) = (0, .error ⟨.json ty, 1 + r.length + off⟩) := by
  cases k with
  | raw =>
    obtain ⟨h1, rfl⟩ := h.toRaw rfl
    simp only [Kind.parser, Jiter.knownBytes, List.drop_succ_cons, List.drop_zero, rawString_skip h1]
    rw [hx.raw, Nat.zero_add, Nat.add_assoc]
    rfl
  | str =>
    obtain ⟨s, h1, rfl⟩ := h.toStr rfl
    simp only [Kind.parser, Jiter.knownStr, List.drop_succ_cons, List.drop_zero, Jiter.decodeString]
    obtain ⟨f, acc, e⟩ := decodeLoop_skip h1 rfl (x :: y.take (j + off)) [] ((r ++ x :: y.take (j + off)).length + 1) 0 (by simp; omega)
    rw [e, hx.decode, Nat.zero_add, Nat.add_assoc]
    rfl

/-- Units are a prefix code. -/
theorem LongUnit.same {k : Kind} {u o u' o' a b : Bytes} (h : LongUnit k u o) (h' : LongUnit k u' o') (e : u ++ a = u' ++ b) : u = u' := by
  have hh : ∀ {ch : Char} {c : Bytes}, PlainChar ch → 92 :: c = enc ch ++ b → False := by
    intro ch c hp e
    obtain ⟨d, ds, e1, _⟩ := enc_shape ch
    rw [e1, List.cons_append, List.cons.injEq] at e
    exact (enc_plain hp d (by rw [e1]; simp)).2.1 e.1.symm
  have hh' : ∀ {ch : Char} {c : Bytes}, PlainChar ch → enc ch ++ a = 92 :: c → False := by
    intro ch c hp e
    obtain ⟨d, ds, e1, _⟩ := enc_shape ch
    rw [e1, List.cons_append, List.cons.injEq] at e
    exact (enc_plain hp d (by rw [e1]; simp)).2.1 e.1
  cases h with
  | char _ ch hp =>
    cases h' with
    | char _ ch' hp' => rw [(enc_inj e).1]
    | escRaw _ _ _ => exact (hh' hp e).elim
    | escStr _ _ _ => exact (hh' hp e).elim
    | uniRaw _ _ _ _ _ _ => exact (hh' hp e).elim
    | uniStr _ _ _ _ _ _ => exact (hh' hp e).elim
  | escRaw f x he =>
    have := (escape_mem he).2.2.2.1
    cases h' with
    | char _ ch' hp' => exact (hh hp' e).elim
    | escRaw _ _ _ => simp at e; simp [e.1]
    | uniRaw _ _ _ _ _ _ => simp at e; exact absurd e.1 this
  | escStr f x he =>
    have := (escape_mem he).2.2.2.1
    cases h' with
    | char _ ch' hp' => exact (hh hp' e).elim
    | escStr _ _ _ => simp at e; simp [e.1]
    | uniStr _ _ _ _ _ _ => simp at e; exact absurd e.1 this
  | uniRaw _ _ _ _ _ _ =>
    cases h' with
    | char _ ch' hp' => exact (hh hp' e).elim
    | escRaw _ _ he => simp at e; exact absurd e.1.symm (escape_mem he).2.2.2.1
    | uniRaw _ _ _ _ _ _ => simp at e; simp [e]
  | uniStr _ _ _ _ _ _ =>
    cases h' with
    | char _ ch' hp' => exact (hh hp' e).elim
    | escStr _ _ he => simp at e; exact absurd e.1.symm (escape_mem he).2.2.2.1
    | uniStr _ _ _ _ _ _ => simp at e; simp [e]

/-- A body without a beginning that is a body. -/
theorem LongBody.cancel {k : Kind} {a v1 : Bytes} (h : LongBody k a v1) : ∀ {b v : Bytes}, LongBody k (a ++ b) v →
    ∃ v2, LongBody k b v2 := by
  induction h with
  | nil => intro b v hb; exact ⟨v, hb⟩
  | cons u o r v1 hu _ ih =>
    intro b v hb
    rw [List.append_assoc] at hb
    generalize hz : u ++ (r ++ b) = z at hb
    cases hb with
    | nil =>
      obtain ⟨c, cs, rfl, _⟩ := hu.shape
      simp at hz
    | cons u' o' r' v' hu' hr' =>
      have := hu.same hu' hz
      subst this
      exact ih (b := b) (v := v') (by rw [List.append_cancel_left hz]; exact hr')

/-- A body does not end with half of an escape. -/
theorem LongBody.half {k : Kind} {a v v' : Bytes} (h : LongBody k a v) (h' : LongBody k (a ++ [92]) v') : False := by
  obtain ⟨v2, h2⟩ := h.cancel h'
  have := h2.parser 34 []
  cases k with
  | raw => exact absurd (congrArg Prod.fst this) (show ¬ ((0 : Nat) = 3) by decide)
  | str => exact absurd (congrArg Prod.fst this) (show ¬ ((0 : Nat) = 3) by decide)

/-- Something that can be in a string, instead of a wrong byte. -/
def instead (off : Nat) : Bytes := if off = 0 then [] else [92, 110]

theorem Wrong.off_le {x : Byte} {y : Bytes} {ty : JsonErr} {off : Nat} (h : Wrong x y ty off) : off = 0 ∨ off = 1 ∧ x = 92 := by
  cases h with
  | control => exact .inl rfl
  | escape => exact .inr ⟨rfl, rfl⟩

theorem Wrong.instead {x : Byte} {y : Bytes} {ty : JsonErr} {off : Nat} (h : Wrong x y ty off) {k : Kind} {r v : Bytes}
    (hr : LongBody k r v) : ∃ v', LongBody k (r ++ instead off) v' := by
  rcases h.off_le with rfl | ⟨rfl, _⟩
  · exact ⟨v, by simpa [Verif.RJiter.instead] using hr⟩
  · clear h
    show ∃ v', LongBody k (r ++ [92, 110]) v'
    induction hr with
    | nil =>
      cases k with
      | raw => exact ⟨_, .cons [92, 110] _ [] [] (.escRaw 110 '\n' (by simp [Escape])) .nil⟩
      | str => exact ⟨_, .cons [92, 110] _ [] [] (.escStr 110 '\n' (by simp [Escape])) .nil⟩
    | cons u o r v hu _ ih =>
      obtain ⟨v', ih⟩ := ih
      exact ⟨_, by rw [List.append_assoc]; exact .cons _ _ _ _ hu ih⟩

theorem instead_length {off : Nat} (h : off ≤ 1) : (instead off).length = 2 * off := by
  rcases (by omega : off = 0 ∨ off = 1) with rfl | rfl <;> rfl

theorem Wrong.cut {x : Byte} {y : Bytes} {ty : JsonErr} {off : Nat} (h : Wrong x y ty off) (r : Bytes) (n : Nat) (hn : n < r.length + 2 + off) :
    (34 :: (r ++ x :: y)).take n = (34 :: (r ++ Verif.RJiter.instead off ++ 34 :: y)).take n := by
  cases n with
  | zero => rfl
  | succ n =>
    rw [List.take_succ_cons, List.take_succ_cons]
    rcases h.off_le with rfl | ⟨rfl, rfl⟩
    · rw [List.take_append_of_le_length (by omega), show r ++ Verif.RJiter.instead 0 ++ 34 :: y = r ++ 34 :: y by simp [Verif.RJiter.instead],
        List.take_append_of_le_length (by omega)]
    · rw [show r ++ 92 :: y = (r ++ [92]) ++ y by simp,
        show r ++ Verif.RJiter.instead 1 ++ 34 :: y = (r ++ [92]) ++ (110 :: 34 :: y) by simp [Verif.RJiter.instead],
        List.take_append_of_le_length (l₁ := r ++ [92]) (by simp; omega),
        List.take_append_of_le_length (l₁ := r ++ [92]) (by simp; omega)]

/-- The state and the error behind a string with the wrong byte `x` in it. The second part of the index is counted twice (C24). -/
structure Stuck (s0 : RJ) (len : Nat) (x : Byte) (t : Bytes) (ty : JsonErr) (off : Nat) (s' : RJ) (e : Err) (n : Nat) : Prop where
  sync : s'.Sync
  clean : s'.b.reader.Clean
  buf : s'.b.buf.length = s0.b.buf.length
  size : s'.b.reader.size ≤ s0.b.reader.size
  index : s'.currentIndex = s0.currentIndex + n
  le : n ≤ len
  rest : ∃ r', s'.rest = 34 :: (r' ++ x :: t) ∧ r'.length + n = len
  err : e = ⟨.json ty, s0.currentIndex + 1 + len + off + s'.jidx⟩
  first : s'.jidx = 0 ∨ n = 0 ∧ s'.jidx = s0.jidx

theorem handleLong_stuck (k : Kind) (s0 : RJ) (x : Byte) (t : Bytes) (ty : JsonErr) (off : Nat) (hx : Wrong x t ty off) (P : Prop) (J : Buffer → Prop)
    (hstep : ∀ b seg b' n, J b → b.nBytes ≤ b.buf.length → seg ≤ b.nBytes → 8 ≤ b.buf.length →
      (if seg > 1 then b.shift 1 seg else b).readMore = (b', .ok n) → n ≠ 0 → J b')
    (hJ : P → ∀ b, J b → b.reader.pending ≠ [] → b.nBytes = 3 ∨ b.nBytes = 7 → leadAt b.buf b.nBytes = true)
    (hlen : 8 ≤ s0.b.buf.length) (hcl : s0.b.reader.Clean) :
    ∀ (fuel : Nat) (s : RJ) (w : Writer) (m : Nat) (r v : Bytes),
    ((s = s0 ∧ s0.Sync ∧ m = 0) ∨ LongInv s0 s m) → s.rest = 34 :: (r ++ x :: t) → LongBody k r v → (92 ∈ r ++ [x] → P) →
    J (startBuf s) → w.plan = [] → s.b.reader.size < fuel →
    ∃ s' w' e n, handleLong k fuel s w = ((s', w'), .err e) ∧ Stuck s0 (m + r.length) x t ty off s' e n := by
  intro fuel
  induction fuel with
  | zero => intro s w m r v _ _ _ _ _ _ h; omega
  | succ fuel ih =>
    intro s w m r v hs hrest hr h92 hJs hw hfuel
    have hsync : s.Sync := by
      rcases hs with ⟨rfl, h, _⟩ | h
      · exact h
      · exact ⟨h.ok, h.jlen, by rw [h.jidx]; exact Nat.zero_le _⟩
    have hjd : s.jdata = s.rest.take (s.b.nBytes - s.jidx) := by
      have h1 := jdata_length hsync
      have h2 := rest_eq hsync
      rw [h2, ← h1, List.take_left]
    have hcut := hx.cut r
    have hoff : off ≤ 1 := by rcases hx.off_le with h | ⟨h, _⟩ <;> omega
    have hlg : (r ++ instead off).length = r.length + 2 * off := by rw [List.length_append, instead_length hoff]
    obtain ⟨vg, hrg⟩ := hx.instead hr
    have hp := hrg.parser 34 t
    obtain ⟨_, hle, hp1, hp2⟩ := k.parser_prefix _ _ _ hp
    rw [handleLong_succ, hjd]
    by_cases hdone : r.length + 2 + off ≤ s.b.nBytes - s.jidx
    · obtain ⟨j, hj⟩ : ∃ j, s.b.nBytes - s.jidx = r.length + (j + off) + 2 := ⟨s.b.nBytes - s.jidx - (r.length + 2 + off), by omega⟩
      have htk : s.rest.take (s.b.nBytes - s.jidx) = 34 :: (r ++ x :: t.take (j + off)) := by
        rw [hrest, hj, List.take_succ_cons, List.take_append, List.take_of_length_le (by omega : r.length ≤ r.length + (j + off) + 1),
          show r.length + (j + off) + 1 - r.length = (j + off) + 1 by omega, List.take_succ_cons]
      rw [htk, hr.wrong hx]
      simp only
      rw [if_pos (show (!canRetry (.json ty)) = true by cases hx <;> rfl)]
      have hmk : ({ s with jidx := s.jidx + 0 } : RJ).mkErr s.jidx ⟨.json ty, 1 + r.length + off⟩ =
          ⟨.json ty, s.jidx + (1 + r.length + off) + s.currentIndex⟩ := rfl
      rw [hmk]
      refine ⟨s, w, _, m, rfl, ?_⟩
      rcases hs with ⟨rfl, h, rfl⟩ | h
      · exact ⟨h, hcl, rfl, Nat.le_refl _, rfl, by omega, ⟨r, hrest, by omega⟩, by congr 1; omega, .inr ⟨rfl, rfl⟩⟩
      · have hc : s.currentIndex = s0.currentIndex + m := by
          have := h.shifted; have := h.jidx; unfold RJ.currentIndex at *; omega
        exact ⟨hsync, h.clean hcl, h.len, h.size, hc, by omega, ⟨r, hrest, by omega⟩, by congr 1; omega, .inl h.jidx⟩
    · obtain ⟨e, hpe, hret⟩ := hp2 (s.b.nBytes - s.jidx) (by omega)
      rw [hrest, hcut _ (Nat.lt_of_not_le hdone), hpe]
      simp only [Nat.add_zero, hret, Bool.not_true, Bool.false_eq_true, if_false]
      -- the string is at the start of the buffer
      have hinv : LongInv s0 (if s.jidx > 0 then ({ s with b := s.b.shift 0 s.jidx, jidx := s.jidx } : RJ).refresh
          else { s with jidx := s.jidx }) m := by
        rcases hs with ⟨rfl, h, rfl⟩ | h
        · by_cases h0 : s.jidx > 0
          · rw [if_pos h0]
            exact LongInv.ofFrame (s := ({ s with b := s.b.shift 0 s.jidx, jidx := s.jidx } : RJ).refresh)
              (Frame.shift0 h.ok h.idx) rfl rfl
          · rw [if_neg h0]
            refine LongInv.ofFrame (s := { s with jidx := s.jidx }) ?_ h.len (by show s.jidx = 0; omega)
            have : Frame s.b s.b s.jidx s.jidx := Frame.refl h.ok h.idx
            rwa [show s.jidx = 0 by omega] at this ⊢
        · rw [if_neg (by rw [h.jidx]; omega)]
          exact h
      have hst : (if s.jidx > 0 then ({ s with b := s.b.shift 0 s.jidx, jidx := s.jidx } : RJ).refresh
          else { s with jidx := s.jidx }).b = startBuf s := by
        unfold startBuf; split <;> rfl
      have hfr : Frame s.b (startBuf s) s.jidx 0 := by
        unfold startBuf
        by_cases h0 : s.jidx > 0
        · rw [if_pos h0]; exact Frame.shift0 hsync.ok hsync.idx
        · rw [if_neg h0]
          have : Frame s.b s.b s.jidx s.jidx := Frame.refl hsync.ok hsync.idx
          rwa [show s.jidx = 0 by omega] at this ⊢
      have hnb : (startBuf s).nBytes = s.b.nBytes - s.jidx := by
        unfold startBuf
        by_cases h0 : s.jidx > 0
        · rw [if_pos h0, (s.b.shift_spec hsync.ok (Nat.zero_le _)).2.1, Nat.min_eq_left hsync.idx]; omega
        · rw [if_neg h0]; omega
      have hrest2 : (startBuf s).rest 0 = 34 :: (r ++ x :: t) := by
        rw [← hrest]; exact hfr.rest
      have hsz := hfr.size
      rw [← hst] at hJs hsz hnb hrest2
      clear hst hfr
      revert hinv hJs hsz hnb hrest2
      generalize (if s.jidx > 0 then ({ s with b := s.b.shift 0 s.jidx, jidx := s.jidx } : RJ).refresh
          else { s with jidx := s.jidx }) = s2
      intro hJs hinv hnb hrest2 hsz
      unfold longRound
      have hl8 : 8 ≤ s2.b.buf.length := by rw [hinv.len]; exact hlen
      have hn : s2.b.nBytes < r.length + 2 + off := by omega
      have hvl := valid_length hinv.ok
      have hv : s2.b.valid = (34 :: (r ++ instead off ++ 34 :: t)).take s2.b.nBytes := by
        rw [← hcut _ hn, ← hrest2]; exact valid_take_rest hinv.ok
      have hpend : s2.b.reader.pending ≠ [] := by
        intro h0
        have := congrArg List.length hrest2
        rw [Buffer.rest, h0] at this
        simp only [List.drop_zero, List.append_nil, hvl, List.length_cons, List.length_append] at this
        have : off = 0 ∨ 1 ≤ t.length := by cases hx <;> simp
        omega
      obtain ⟨hsb, hcase⟩ := segment_body hinv.ok hl8 hrg hv (by omega) (fun h => hJ (h92 (by
        rcases List.mem_append.mp h with h | h
        · simp [h]
        · rcases hx.off_le with rfl | ⟨rfl, rfl⟩
          · simp [instead] at h
          · simp)) _ hJs hpend)
      rw [if_neg (by omega)]
      have hgen : ∀ (b3 : Buffer) (m' : Nat) (r' v' : Bytes) (w1 : Writer),
          LongInv s0 ⟨b3, b3.nBytes, s2.jidx⟩ m' → b3.rest 0 = 34 :: (r' ++ x :: t) → LongBody k r' v' →
          (92 ∈ r' → 92 ∈ r) → b3.nBytes < b3.buf.length → b3.reader = s2.b.reader →
          (∀ b' n, b3.readMore = (b', .ok n) → n ≠ 0 → J b') → w1.plan = [] →
          ∃ s' w' er n, (match b3.readMore with
            | (b4, .ok n) =>
              if n = 0 then
                (({ s2 with b := b4 }, w1),
                  .err (.fromJiter ({ s2 with b := b4 } : RJ).currentIndex e.type (s.jidx + e.index)))
              else handleLong k fuel ({ s2 with b := b4 } : RJ).refresh w1
            | (b4, .err er) => (({ s2 with b := b4 }, w1), .err er)
            | (b4, .panic) => (({ s2 with b := b4 }, w1), .panic)
            | (b4, .diverge) => (({ s2 with b := b4 }, w1), .diverge)) =
              ((s', w'), Res.err er) ∧ Stuck s0 (m' + r'.length) x t ty off s' er n := by
        intro b3 m' r' v' w1 hinv3 hrest3 hr3 hsub hroom hrd hJ3 hw1
        have hread := hinv3.read
        rcases b3.readMore_cases hinv3.ok with ⟨h1, e⟩ | ⟨h1, e⟩ | ⟨q, r', hlt, h1, e⟩ |
          ⟨b', bs, e, hb, hv', hn', ho, hl', hp', hs', hcl', _⟩
        · omega
        · rw [hrd] at h1
          rw [h1] at hpend
          exact absurd rfl hpend
        · have := hinv3.clean hcl
          simp only [h1] at this
          exact absurd this Reader.Clean.ne_fail
        · simp only [e] at hread ⊢
          rw [if_neg (by omega)]
          refine ih _ _ m' r' v' (.inr hread) ?_ hr3 (fun h => h92 (by
            rcases List.mem_append.mp h with h | h
            · simp [hsub h]
            · exact List.mem_append_right _ h)) ?_ hw1 ?_
          · show b'.rest 0 = _
            rw [← hrest3, Buffer.rest, Buffer.rest, List.drop_zero, List.drop_zero, hv', hp', List.append_assoc]
          · rw [startBuf_zero rfl]
            exact hJ3 b' bs.length e (by omega)
          · show b'.reader.size < fuel
            have : b3.reader.size = s2.b.reader.size := by rw [hrd]
            omega
      revert hcase hsb
      generalize backToLeading s2.b.buf (segmentEnd s2.b) = seg
      intro hsb hcase
      rcases hcase with ⟨h1, hroom⟩ | ⟨h1, hle1, v1, v2, _, hb1, hb2⟩
      · simp only [show ¬ seg > 1 by omega, if_false]
        exact hgen s2.b m r v w (by rw [← hinv.jlen]; exact hinv) hrest2 hr id hroom rfl (by
          intro b' n hrm hn0
          refine hstep s2.b 0 b' n hJs hinv.ok (by omega) hl8 ?_ hn0
          rw [if_neg (by omega)]; exact hrm) hw
      · have hseg : seg - 1 ≤ r.length := by
          apply Nat.le_of_not_lt
          intro hlt
          rcases hx.off_le with rfl | ⟨rfl, rfl⟩
          · omega
          · rw [show r ++ instead 1 = (r ++ [92]) ++ [110] by simp [instead], List.take_append_of_le_length (by simp; omega),
              List.take_of_length_le (by simp; omega)] at hb1
            exact hr.half hb1
        rw [List.take_append_of_le_length hseg] at hb1
        obtain ⟨v2, hb2⟩ : ∃ v2, LongBody k (r.drop (seg - 1)) v2 := hb1.cancel (by rw [List.take_append_drop]; exact hr)
        simp only [show seg > 1 from h1, if_true]
        have htake : s2.b.buf.take seg = 34 :: r.take (seg - 1) := by
          have : s2.b.valid.take seg = s2.b.buf.take seg := by
            rw [Buffer.valid, List.take_take, Nat.min_eq_left hle1]
          rw [← this, hv, List.take_take, Nat.min_eq_left hle1]
          obtain ⟨g, rfl⟩ : ∃ g, seg = g + 1 := ⟨seg - 1, by omega⟩
          rw [List.take_succ_cons, Nat.add_sub_cancel, List.append_assoc, List.take_append_of_le_length (by omega)]
        rw [hb1.write htake _ w hw]
        simp only
        obtain ⟨e1, e2, e3, e4, e5, e6, _⟩ := s2.b.shift_spec hinv.ok (t := 1) (f := seg) (by omega)
        have hinv3 := hinv.shift h1 hle1
        have := hgen (s2.b.shift 1 seg) (m + (seg - 1)) (r.drop (seg - 1)) v2 { w with out := w.out ++ v1 } hinv3 (by
            rw [Buffer.rest, List.drop_zero, e1, e6, List.append_assoc]
            have t1 : s2.b.valid.take 1 = [34] := by
              rw [hv, List.take_take, Nat.min_eq_left (by omega)]; rfl
            have t2 : s2.b.valid.drop seg ++ s2.b.reader.pending = (s2.b.rest 0).drop seg := by
              rw [Buffer.rest, List.drop_zero, List.drop_append_of_le_length (by omega)]
            rw [t1, t2, hrest2]
            obtain ⟨g, rfl⟩ : ∃ g, seg = g + 1 := ⟨seg - 1, by omega⟩
            rw [List.drop_succ_cons, Nat.add_sub_cancel, List.drop_append_of_le_length (by omega)]
            rfl) hb2 (fun h => List.mem_of_mem_drop h) (by
            rw [e2, e4, Nat.min_eq_left hle1]; have := hinv.ok; omega) e6 (by
            intro b' n hrm hn0
            refine hstep s2.b seg b' n hJs hinv.ok (by omega) hl8 ?_ hn0
            rw [if_pos h1]; exact hrm) hw
        have hlen' : m + (seg - 1) + (r.drop (seg - 1)).length = m + r.length := by
          rw [List.length_drop]; omega
        rw [hlen'] at this
        exact this

theorem handleLong_wrong (k : Kind) (s : RJ) (fuel : Nat) (w : Writer) (body v t : Bytes) (x : Byte) (ty : JsonErr) (off : Nat)
    (hx : Wrong x t ty off) (h : s.Sync)
    (hlen : 8 ≤ s.b.buf.length) (hcl : s.b.reader.Clean) (hr : s.rest = 34 :: (body ++ x :: t)) (hb : LongBody k body v)
    (hw : w.plan = []) (hf : s.b.reader.size < fuel) (hsafe : StaleSafe s (body ++ [x])) :
    ∃ s' w' e n, handleLong k fuel s w = ((s', w'), .err e) ∧ Stuck s body.length x t ty off s' e n := by
  obtain ⟨P, J, h1, h2, h3, h4⟩ := hsafe.inv h hlen
  obtain ⟨s', w', e, n, h5, h6⟩ := handleLong_stuck k s x t ty off hx P J h1 h2 hlen hcl fuel s w 0 body v (.inl ⟨rfl, h, rfl⟩) hr hb h3 h4 hw hf
  rw [Nat.zero_add] at h6
  exact ⟨s', w', e, n, h5, h6⟩

end Verif.RJiter
