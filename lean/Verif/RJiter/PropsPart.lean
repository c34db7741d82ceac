import Verif.RJiter.LongKept
import Verif.RJiter.Tidy
import Verif.RJiter.PropsLong

/-!
# C89: what `write_long_str` and `write_long_bytes` have written, whatever they return

`Res` is success, an error, a panic, or running out of fuel; the theorems are about all of them. A writer may fail
at any call, after any part of the bytes of the call; a reader may fail at any call.
-/

namespace Verif.RJiter

open Buffer RJ Jiter

theorem HexDigit.unique {c : Byte} {x y : Nat} (h1 : HexDigit c x) (h2 : HexDigit c y) : x = y := by
  unfold HexDigit at h1 h2
  omega

theorem Hex4.unique {a b c d : Byte} {x y : Nat} (h1 : Hex4 a b c d x) (h2 : Hex4 a b c d y) : x = y := by
  obtain ⟨_, _, _, _, p1, p2, p3, p4, rfl⟩ := h1
  obtain ⟨_, _, _, _, q1, q2, q3, q4, rfl⟩ := h2
  rw [p1.unique q1, p2.unique q2, p3.unique q3, p4.unique q4]

theorem Escape.unique {e : Byte} {x y : Char} (h1 : Escape e x) (h2 : Escape e y) : x = y := by
  simp only [Escape, List.mem_cons, Prod.mk.injEq, List.not_mem_nil, or_false] at h1 h2
  rcases h1 with ⟨rfl, rfl⟩ | ⟨rfl, rfl⟩ | ⟨rfl, rfl⟩ | ⟨rfl, rfl⟩ | ⟨rfl, rfl⟩ | ⟨rfl, rfl⟩ | ⟨rfl, rfl⟩ | ⟨rfl, rfl⟩ <;> simp at h2 <;> exact h2.symm

theorem Escape.not_u {x : Char} (h : Escape 117 x) : False := by
  simp [Escape] at h

theorem Char.not_surrogate (ch : Char) (h1 : 0xD800 ≤ ch.toNat) (h2 : ch.toNat ≤ 0xDFFF) : False := by
  have := ch.valid
  have e : ch.val.toNat = ch.toNat := rfl
  simp only [UInt32.isValidChar, Nat.isValidChar] at this
  omega

/-- Two decodings of beginnings of the same bytes, the second one up to a quote. -/
theorem Dec.start {a v : Bytes} (h1 : Dec a v) : ∀ {b u t t' : Bytes}, Dec b u → a ++ t' = b ++ 34 :: t → ∃ z, u = v ++ z := by
  induction h1 with
  | nil => intro b u t t' _ _; exact ⟨u, rfl⟩
  | byte c r v hp _ ih =>
    intro b u t t' h2 e
    cases h2 with
    | nil => simp only [List.cons_append, List.nil_append, List.cons.injEq] at e; exact absurd e.1 hp.1
    | byte c' r' v' hp' hd' =>
      simp only [List.cons_append, List.cons.injEq] at e
      obtain ⟨rfl, e⟩ := e
      obtain ⟨z, rfl⟩ := ih hd' e
      exact ⟨z, rfl⟩
    | esc => simp only [List.cons_append, List.cons.injEq] at e; exact absurd e.1 hp.2.1
    | uni => simp only [List.cons_append, List.cons.injEq] at e; exact absurd e.1 hp.2.1
    | pair => simp only [List.cons_append, List.cons.injEq] at e; exact absurd e.1 hp.2.1
  | esc e x r v he _ ih =>
    intro b u t t' h2 e
    cases h2 with
    | nil => simp at e
    | byte c' r' v' hp' hd' => simp only [List.cons_append, List.cons.injEq] at e; exact absurd e.1.symm hp'.2.1
    | esc e' x' r' v' he' hd' =>
      simp only [List.cons_append, List.cons.injEq, true_and] at e
      obtain ⟨rfl, e⟩ := e
      obtain ⟨z, rfl⟩ := ih hd' e
      exact ⟨z, by rw [he.unique he', List.append_assoc]⟩
    | uni => simp only [List.cons_append, List.cons.injEq, true_and] at e; obtain ⟨rfl, _⟩ := e; exact he.not_u.elim
    | pair => simp only [List.cons_append, List.cons.injEq, true_and] at e; obtain ⟨rfl, _⟩ := e; exact he.not_u.elim
  | uni a b c d ch r v hx _ ih =>
    intro b' u t t' h2 e
    cases h2 with
    | nil => simp at e
    | byte c' r' v' hp' hd' => simp only [List.cons_append, List.cons.injEq] at e; exact absurd e.1.symm hp'.2.1
    | esc e' x' r' v' he' hd' => simp only [List.cons_append, List.cons.injEq, true_and] at e; obtain ⟨rfl, _⟩ := e; exact he'.not_u.elim
    | uni a' b' c' d' ch' r' v' hx' hd' =>
      simp only [List.cons_append, List.cons.injEq, true_and] at e
      obtain ⟨rfl, rfl, rfl, rfl, e⟩ := e
      obtain ⟨z, rfl⟩ := ih hd' e
      exact ⟨z, by rw [Char.toNat_inj.mp (hx.unique hx'), List.append_assoc]⟩
    | pair _ _ _ _ _ _ _ _ hi lo ch' r' v' p1 p2 p3 =>
      simp only [List.cons_append, List.cons.injEq, true_and] at e
      obtain ⟨rfl, rfl, rfl, rfl, _⟩ := e
      have := hx.unique p1
      exact (Char.not_surrogate ch (by omega) (by omega)).elim
  | pair a b c d a' b' c' d' hi lo ch r v p1 p2 p3 p4 p5 p6 p7 _ ih =>
    intro b'' u t t' h2 e
    cases h2 with
    | nil => simp at e
    | byte c' r' v' hp' hd' => simp only [List.cons_append, List.cons.injEq] at e; exact absurd e.1.symm hp'.2.1
    | esc e' x' r' v' he' hd' => simp only [List.cons_append, List.cons.injEq, true_and] at e; obtain ⟨rfl, _⟩ := e; exact he'.not_u.elim
    | uni _ _ _ _ ch' r' v' hx' hd' =>
      simp only [List.cons_append, List.cons.injEq, true_and] at e
      obtain ⟨rfl, rfl, rfl, rfl, _⟩ := e
      have := hx'.unique p1
      exact (Char.not_surrogate ch' (by omega) (by omega)).elim
    | pair _ _ _ _ _ _ _ _ hi' lo' ch' r' v' q1 q2 q3 q4 q5 q6 q7 hd' =>
      simp only [List.cons_append, List.cons.injEq, true_and] at e
      obtain ⟨rfl, rfl, rfl, rfl, rfl, rfl, rfl, rfl, e⟩ := e
      obtain ⟨z, rfl⟩ := ih hd' e
      have h1 := p1.unique q1
      have h2 := p4.unique q4
      subst h1 h2
      exact ⟨z, by rw [Char.toNat_inj.mp (p7.trans q7.symm), List.append_assoc]⟩

theorem StrBody.dec {pairs : Bool} {b : Bytes} {s : List Char} (h : StrBody pairs b s) : Dec b (encAll s) := by
  induction h with
  | nil => exact .nil
  | char ch r s hp _ ih =>
    have hb : ∀ l : Bytes, (∀ c ∈ l, PlainByte c) → Dec (l ++ r) (l ++ encAll s) := by
      intro l hl
      induction l with
      | nil => exact ih
      | cons c l ihl => exact .byte c _ _ (hl c (by simp)) (ihl fun x hx => hl x (by simp [hx]))
    exact hb _ (enc_plain hp)
  | esc e x r s he _ ih => exact .esc e x _ _ he ih
  | uni a b c d ch r s hx _ ih => exact .uni a b c d ch _ _ hx ih
  | pair a b c d a' b' c' d' hi lo ch r s _ p1 p2 p3 p4 p5 p6 p7 _ ih =>
    exact .pair a b c d a' b' c' d' hi lo ch _ _ p1 p2 p3 p4 p5 p6 p7 ih

theorem handleLong_part0 {k : Kind} {s s' : RJ} {fuel : Nat} {w w' : Writer} {r : Res Unit} (h : s.Sync)
    (hr : handleLong k fuel s w = ((s', w'), r)) : WrittenPart k (s.rest.drop 1) w w' (w.plan = []) :=
  handleLong_part k s w (w.plan = []) fuel s w 0 (.inl ⟨rfl, h, rfl⟩)
    ⟨fun h => absurd h (Nat.lt_irrefl 0), [], (List.append_nil _).symm, by rw [List.take_zero]; exact WrittenFor.nil k⟩ id s' w' r hr

/-- **C89** (`write_long_str`, any input): whatever the call returns, some bytes `a` behind the quote are well-formed
content of a string, and what was written is a beginning of the encoding of the characters they stand for. If the
writer did not fail it is the encoding of all of them: no part of a character is written. Any buffer, any
chunks, any reader. -/
theorem C89_str (s : RJ) (fuel : Nat) (w : Writer) (h : s.Sync) :
    ∃ a t chars y z, s.rest.drop 1 = a ++ t ∧ StrBody true a chars ∧ encAll chars = y ++ z ∧
      (s.writeLongStr fuel w).1.2.out = w.out ++ y ∧ (w.plan = [] → z = []) := by
  obtain ⟨a, t, v, y, z, h1, ⟨hd, hu⟩, h3, h4, h5⟩ := handleLong_part0 (k := .str) (fuel := fuel) (w := w) h rfl
  obtain ⟨chars, rfl⟩ := utf8Valid_chars _ v (Nat.le_refl _) hu
  exact ⟨a, t, chars, y, z, h1, hd.chars _ rfl, h3, h4, h5⟩

/-- **C89** (`write_long_str`, a well-formed string): whatever the call returns, what was written is a beginning of
the string. -/
theorem C89_str_valid (s : RJ) (fuel : Nat) (w : Writer) (body t : Bytes) (chars : List Char) (h : s.Sync)
    (hr : s.rest = 34 :: (body ++ 34 :: t)) (hb : StrBody true body chars) :
    ∃ y z, encAll chars = y ++ z ∧ (s.writeLongStr fuel w).1.2.out = w.out ++ y := by
  obtain ⟨a, t', c, y, z, h1, h2, h3, h4, _⟩ := C89_str s fuel w h
  rw [hr, List.drop_succ_cons, List.drop_zero] at h1
  obtain ⟨z', hz⟩ := h2.dec.start hb.dec h1.symm
  exact ⟨y, z ++ z', by rw [hz, h3, List.append_assoc], h4⟩

theorem writeLongBytes_kept {s s' : RJ} {fuel : Nat} {w w' : Writer} {r : Res Unit} (h : s.Sync) (hq : ∀ q t, s.rest = q :: t → q ≠ 92)
    (hr : s.writeLongBytes fuel w = ((s', w'), r)) : KeptPart (Harmless s) (s.rest.drop 1) w w' (w.plan = []) :=
  handleLong_kept (Harmless s) s w (w.plan = []) hq fuel s w 0 (.inl ⟨rfl, h, rfl⟩)
    ⟨fun h => absurd h (Nat.lt_irrefl 0), by rw [List.take_zero]; exact .nil, fun _ => by rw [List.take_zero]; exact .nil, id⟩
    (by rw [List.take_zero, List.append_nil]) id s' w' r hr

/-- **C89** (`write_long_bytes`, any input): whatever the call returns, what was written is a beginning of some bytes `a`
behind the quote, and all of them if the writer did not fail. A quote in `a` only stands behind a backslash. If the data is
`Harmless`, `a` is what the code takes for the contents of a string. -/
theorem C89_bytes (s : RJ) (fuel : Nat) (w : Writer) (q : Byte) (t : Bytes) (h : s.Sync) (hr : s.rest = q :: t) (hq : q ≠ 92) :
    ∃ a t' y z, t = a ++ t' ∧ a = y ++ z ∧ (s.writeLongBytes fuel w).1.2.out = w.out ++ y ∧ Weak a ∧ (Harmless s → Skim true a) ∧
      (w.plan = [] → z = []) := by
  have := writeLongBytes_kept (fuel := fuel) (w := w) h (fun _ _ e => by rw [hr] at e; injection e with e _; exact e ▸ hq) rfl
  rwa [hr, List.drop_succ_cons, List.drop_zero] at this

/-- **C89** (`write_long_bytes`, a well-formed string): if the buffer has only ASCII in it, or the data has no backslash, then
whatever the call returns, what was written is a beginning of the string. -/
theorem C89_bytes_valid (s : RJ) (fuel : Nat) (w : Writer) (body t : Bytes) (h : s.Sync) (hr : s.rest = 34 :: (body ++ 34 :: t))
    (hb : RawBody body) (hh : Harmless s) : ∃ y z, body = y ++ z ∧ (s.writeLongBytes fuel w).1.2.out = w.out ++ y := by
  obtain ⟨a, t', y, z, h1, h2, h3, _, h4, _⟩ := C89_bytes s fuel w _ _ h hr (by decide)
  obtain ⟨z', hz⟩ := (h4 hh).start hb.tidy h1.symm
  exact ⟨y, z ++ z', by rw [hz, h2, List.append_assoc], h3⟩

/-- `"ab\n é`, and then the reader fails: four characters are written. -/
def exFails : RJ := RJ.new (oneByOne [34, 97, 98, 92, 110, 32, 0xC3, 0xA9] ++ [.fail 7]) (List.replicate 8 0)

example : exFails.Sync ∧ exFails.rest.drop 1 = [97, 98, 92, 110, 32] ++ [0xC3, 0xA9] ∧
    StrBody true [97, 98, 92, 110, 32] ['a', 'b', '\n', ' '] ∧
    (exFails.writeLongStr 100 ⟨[], []⟩).2 = .err ⟨.io 7, 3⟩ ∧ (exFails.writeLongStr 100 ⟨[], []⟩).1.2.out = [97, 98, 10, 32] :=
  ⟨sync_new _ _, by decide +kernel,
    .char 'a' _ _ ⟨by decide, by decide, by decide⟩ (.char 'b' _ _ ⟨by decide, by decide, by decide⟩
      (.esc 110 '\n' _ _ (by simp [Escape]) (.char ' ' _ _ ⟨by decide, by decide, by decide⟩ .nil))),
    by decide +kernel, by decide +kernel⟩

/-- `"aéb"`, and a writer that fails after two bytes: the character is cut. -/
def exTorn : RJ := RJ.new [.data 34 [97, 0xC3, 0xA9, 98, 34]] (List.replicate 8 0)

example : exTorn.Sync ∧ exTorn.rest = 34 :: ([97, 0xC3, 0xA9, 98] ++ 34 :: []) ∧
    StrBody true [97, 0xC3, 0xA9, 98] ['a', 'é', 'b'] ∧
    (exTorn.writeLongStr 100 ⟨[], [some ⟨5, 2⟩]⟩).2 = .err ⟨.io 5, 6⟩ ∧
    (exTorn.writeLongStr 100 ⟨[], [some ⟨5, 2⟩]⟩).1.2.out = [97, 0xC3] :=
  ⟨sync_new _ _, by decide +kernel,
    .char 'a' _ _ ⟨by decide, by decide, by decide⟩ (.char 'é' [98] _ ⟨by decide, by decide, by decide⟩
      (.char 'b' _ _ ⟨by decide, by decide, by decide⟩ .nil)), by decide +kernel, by decide +kernel⟩

/-- `"ab\"c","d"]`, in chunks of three bytes, a buffer of eight. -/
def exShown : RJ := RJ.new [.data 34 [97, 98], .data 92 [34, 99], .data 34 [44, 34], .data 100 [34, 93]] (List.replicate 8 0)

example : exShown.Sync ∧ exShown.rest = 34 :: ([97, 98, 92, 34, 99] ++ 34 :: [44, 34, 100, 34, 93]) ∧ RawBody [97, 98, 92, 34, 99] ∧
    Harmless exShown ∧ (exShown.writeLongBytes 100 ⟨[], [none, some ⟨5, 1⟩]⟩).2 = .err ⟨.io 5, 1⟩ ∧
    (exShown.writeLongBytes 100 ⟨[], [none, some ⟨5, 1⟩]⟩).1.2.out = [97, 98] :=
  ⟨sync_new _ _, by decide +kernel,
    .char 'a' _ ⟨by decide, by decide, by decide⟩ (.char 'b' _ ⟨by decide, by decide, by decide⟩
      (.esc 34 '"' _ (by simp [Escape]) (.char 'c' _ ⟨by decide, by decide, by decide⟩ .nil))),
    .inl ⟨by decide, by decide⟩, by decide +kernel, by decide +kernel⟩

/-- `"你\\","b"]`, the last six bytes in one chunk. -/
def exOver : RJ := RJ.new (oneByOne (34 :: (enc '你' ++ [92, 92])) ++ [.data 34 [44, 34, 98, 34, 93]]) (List.replicate 20 0)

/-- **C89, a false part.** `C89_bytes_valid` needs its last hypothesis: `write_long_bytes` on the string
`"你\\"` followed by `,"b"]` succeeds, has written the string, its closing quote and the comma, and stands on `b"]`. The
two bytes `\\` are taken apart because of a stale byte in the buffer, and the second one then hides the quote. -/
theorem C89_bytes_overrun : ∃ (s : RJ) (body t : Bytes), s.Sync ∧ 8 ≤ s.b.buf.length ∧ s.b.reader.Clean ∧ RawBody body ∧
    s.rest = 34 :: (body ++ 34 :: t) ∧ enoughFuel s 40 ∧ (s.writeLongBytes 40 ⟨[], []⟩).2 = .ok () ∧
    (s.writeLongBytes 40 ⟨[], []⟩).1.2.out = body ++ [34, 44] ∧ (s.writeLongBytes 40 ⟨[], []⟩).1.1.rest = [98, 34, 93] := by
  refine ⟨exOver, enc '你' ++ 92 :: 92 :: [], [44, 34, 98, 34, 93], sync_new _ _, by decide, by decide +kernel,
    .char '你' _ ⟨by decide, by decide, by decide⟩ (.esc 92 '\\' _ (by simp [Escape]) .nil), ?_⟩
  decide +kernel

end Verif.RJiter
