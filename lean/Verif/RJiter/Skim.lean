import Verif.RJiter.SkimSpec
import Verif.RJiter.StepSound
import Verif.RJiter.LongSafe
import Verif.RJiter.LongSound

/-!
# Strings of which only the bytes are looked at
-/

namespace Verif.RJiter

open Buffer RJ Jiter

theorem Skim.append {wide : Bool} {a b : Bytes} (ha : Skim wide a) (hb : Skim wide b) : Skim wide (a ++ b) := by
  induction ha with
  | nil => exact hb
  | byte c r h1 h2 h3 _ ih => exact .byte c _ h1 h2 h3 ih
  | esc e r h _ ih => exact .esc e _ h ih
  | uni a b c d r h _ ih => exact .uni a b c d _ h ih

theorem Skim.widen {a : Bytes} (ha : Skim false a) (wide : Bool) : Skim wide a := by
  induction ha with
  | nil => exact .nil
  | byte c r h1 h2 h3 _ ih => exact .byte c _ h1 h2 h3 ih
  | esc e r h _ ih => exact .esc e _ h ih
  | uni a b c d r h => cases h

theorem Weak.append {a b : Bytes} (ha : Weak a) (hb : Weak b) : Weak (a ++ b) := by
  induction ha with
  | nil => exact hb
  | byte c r h _ ih => exact .byte c _ h ih
  | esc r _ ih => exact .esc _ ih

theorem Skim.weak {a : Bytes} (ha : Skim false a) : Weak a := by
  induction ha with
  | nil => exact .nil
  | byte c r _ h2 _ _ ih => exact .byte c _ h2 ih
  | esc e r _ _ ih =>
    by_cases he : e = 34
    · subst he; exact .esc _ ih
    · exact .byte 92 _ (by decide) (.byte e _ he ih)
  | uni a b c d r h => cases h

theorem not_lt_32 {c : Byte} (h : ¬ c < 32) : 32 ≤ c.toNat := by
  rw [UInt8.lt_iff_toNat_lt] at h
  have : (32 : Byte).toNat = 32 := rfl
  omega

/-- What `known_bytes` found. -/
theorem rawString_skim : ∀ (k : Nat) (l : Bytes) (i n : Nat), l.length ≤ k → rawString l i = .ok n →
    i ≤ n ∧ Skim false (l.take (n - i)) ∧ ∃ t, l.drop (n - i) = 34 :: t := by
  intro k
  induction k with
  | zero =>
    intro l i n hl h
    have : l = [] := List.length_eq_zero_iff.mp (by omega)
    subst this
    simp [rawString] at h
  | succ k ih =>
    intro l i n hl h
    cases l with
    | nil => simp [rawString] at h
    | cons c cs =>
      rw [List.length_cons] at hl
      unfold rawString at h
      by_cases h34 : c = 34
      · rw [if_pos h34] at h
        simp only [Except.ok.injEq] at h
        subst h h34
        exact ⟨Nat.le_refl _, by rw [Nat.sub_self]; exact .nil, cs, by rw [Nat.sub_self]; rfl⟩
      · rw [if_neg h34] at h
        by_cases h92 : c = 92
        · rw [if_pos h92] at h
          subst h92
          cases cs with
          | nil => simp at h
          | cons e cs' =>
            rw [List.length_cons] at hl
            have next : e ∈ [34, 92, 47, 98, 102, 110, 114, 116, 117] → rawString cs' (i + 2) = .ok n →
                i ≤ n ∧ Skim false ((92 :: e :: cs').take (n - i)) ∧ ∃ t, (92 :: e :: cs').drop (n - i) = 34 :: t := by
              intro he hr
              obtain ⟨h1, h2, h3⟩ := ih cs' (i + 2) n (by omega) hr
              rw [show n - i = (n - (i + 2)) + 1 + 1 by omega, List.take_succ_cons, List.take_succ_cons, List.drop_succ_cons, List.drop_succ_cons]
              exact ⟨by omega, .esc e _ he h2, h3⟩
            simp only at h
            split at h
            · rename_i he
              exact next (by rcases he with rfl | rfl | rfl | rfl | rfl | rfl | rfl | rfl <;> decide) h
            · split at h
              · rename_i he
                split at h
                · simp at h
                · exact next (by rw [he]; decide) h
              · simp at h
        · rw [if_neg h92] at h
          split at h
          · simp at h
          · rename_i hlt
            obtain ⟨h1, h2, h3⟩ := ih cs (i + 1) n (by omega) h
            rw [show n - i = (n - (i + 1)) + 1 by omega, List.take_succ_cons, List.drop_succ_cons]
            exact ⟨by omega, .byte c _ (not_lt_32 hlt) h34 h92 h2, h3⟩

theorem knownBytes_skim {d : Bytes} {n : Nat} {v : Bytes} (h : Jiter.knownBytes d = (n, .ok v)) :
    Skim false v ∧ ∃ t, d.drop 1 = v ++ 34 :: t ∧ n = v.length + 2 := by
  refine ⟨?_, knownBytes_ok h⟩
  simp only [Jiter.knownBytes] at h
  cases hd : rawString (d.drop 1) 0 with
  | error e => rw [hd] at h; simp [jerr] at h
  | ok m =>
    rw [hd] at h
    simp only [Prod.mk.injEq, Except.ok.injEq] at h
    have := (rawString_skim _ _ 0 m (Nat.le_refl _) hd).2.1
    rw [Nat.sub_zero] at this
    rw [← h.2]; exact this

/-- A string that is not complete: as far as there is no backslash. -/
theorem rawString_noEsc : ∀ (l : Bytes) (i j : Nat), rawString l i = .error (.eofWhileParsingString, j) →
    ∀ g, 92 ∉ l.take g → Skim false (l.take g) := by
  intro l
  induction l with
  | nil => intro i j _ g _; rw [List.take_nil]; exact .nil
  | cons c cs ih =>
    intro i j h g hg
    cases g with
    | zero => exact .nil
    | succ g =>
      rw [List.take_succ_cons] at hg ⊢
      simp only [List.mem_cons, not_or] at hg
      unfold rawString at h
      have h92 : ¬ c = 92 := fun h => hg.1 h.symm
      split at h
      · simp at h
      · rename_i h34
        split at h
        · simp at h
        · rename_i hlt
          exact .byte c _ (not_lt_32 hlt) h34 h92 (ih _ _ h g hg.2)

/-- A string that is not complete: as far as one likes. -/
theorem rawString_weak : ∀ (k : Nat) (l : Bytes) (i j : Nat), l.length ≤ k → rawString l i = .error (.eofWhileParsingString, j) →
    ∀ g, Weak (l.take g) := by
  intro k
  induction k with
  | zero =>
    intro l i j hl _ g
    have : l = [] := List.length_eq_zero_iff.mp (by omega)
    subst this
    rw [List.take_nil]; exact .nil
  | succ k ih =>
    intro l i j hl h g
    cases l with
    | nil => rw [List.take_nil]; exact .nil
    | cons c cs =>
      rw [List.length_cons] at hl
      cases g with
      | zero => exact .nil
      | succ g =>
        rw [List.take_succ_cons]
        unfold rawString at h
        split at h
        · simp at h
        · rename_i h34
          split at h
          · rename_i h92
            subst h92
            cases cs with
            | nil => rw [List.take_nil]; exact .byte 92 _ (by decide) .nil
            | cons e cs' =>
              rw [List.length_cons] at hl
              have next : rawString cs' (i + 2) = .error (.eofWhileParsingString, j) → Weak (92 :: (e :: cs').take g) := by
                intro hr
                cases g with
                | zero => exact .byte 92 _ (by decide) .nil
                | succ g =>
                  rw [List.take_succ_cons]
                  have := ih cs' (i + 2) j (by omega) hr g
                  by_cases he : e = 34
                  · subst he; exact .esc _ this
                  · exact .byte 92 _ (by decide) (.byte e _ he this)
              simp only at h
              split at h
              · exact next h
              · split at h
                · split at h
                  · simp at h
                  · exact next h
                · simp at h
          · split at h
            · simp at h
            · exact .byte c _ h34 (ih _ _ _ (by omega) h g)

/-- The letter behind a backslash. -/
theorem rawString_esc {e : Byte} {r : Bytes} {i j : Nat} (h : rawString (92 :: e :: r) i = .error (.eofWhileParsingString, j)) :
    e ∈ [34, 92, 47, 98, 102, 110, 114, 116, 117] := by
  unfold rawString at h
  rw [if_neg (by decide), if_pos rfl] at h
  simp only at h
  split at h
  · rename_i he
    rcases he with rfl | rfl | rfl | rfl | rfl | rfl | rfl | rfl <;> decide
  · split at h
    · rename_i he
      rw [he]; decide
    · simp at h

theorem rawString_err : ∀ (k : Nat) (l : Bytes) (i : Nat) (e : JsonErr) (j : Nat), l.length ≤ k → rawString l i = .error (e, j) →
    allowedIfPartial e = true → e = .eofWhileParsingString := by
  intro k
  induction k with
  | zero =>
    intro l i e j hl h _
    have : l = [] := List.length_eq_zero_iff.mp (by omega)
    subst this
    simp only [rawString, Except.error.injEq, Prod.mk.injEq] at h
    exact h.1.symm
  | succ k ih =>
    intro l i e j hl h ha
    cases l with
    | nil =>
      simp only [rawString, Except.error.injEq, Prod.mk.injEq] at h
      exact h.1.symm
    | cons c cs =>
      rw [List.length_cons] at hl
      unfold rawString at h
      split at h
      · simp at h
      · split at h
        · split at h
          · simp only [Except.error.injEq, Prod.mk.injEq] at h
            exact h.1.symm
          · rename_i e' cs'
            rw [List.length_cons] at hl
            split at h
            · exact ih _ _ _ _ (by omega) h ha
            · split at h
              · split at h
                · simp only [Except.error.injEq, Prod.mk.injEq] at h
                  rw [← h.1] at ha; simp [allowedIfPartial] at ha
                · exact ih _ _ _ _ (by omega) h ha
              · simp only [Except.error.injEq, Prod.mk.injEq] at h
                rw [← h.1] at ha; simp [allowedIfPartial] at ha
        · split at h
          · simp only [Except.error.injEq, Prod.mk.injEq] at h
            rw [← h.1] at ha; simp [allowedIfPartial] at ha
          · exact ih _ _ _ _ (by omega) h ha

/-- An incomplete string, for which `known_bytes` wants more. -/
theorem knownBytes_more {d : Bytes} {n : Nat} {e : JErr} (h : Jiter.knownBytes d = (n, .error e)) (hr : canRetry e.type = true) :
    ∃ j, rawString (d.drop 1) 0 = .error (.eofWhileParsingString, j) := by
  simp only [Jiter.knownBytes] at h
  cases hd : rawString (d.drop 1) 0 with
  | error e' =>
    obtain ⟨e', j⟩ := e'
    rw [hd] at h
    simp only [jerr, Prod.mk.injEq, Except.error.injEq] at h
    rw [← h.2] at hr
    exact ⟨j, by rw [rawString_err _ _ _ _ _ (Nat.le_refl _) hd hr]⟩
  | ok m => rw [hd] at h; simp at h

/-- No byte left over in the buffer can do harm: all is ASCII, or there is no escape. -/
def Harmless (s : RJ) : Prop := AllBytes (fun c => c.toNat < 0x80) s.b ∨ 92 ∉ s.rest

theorem leading_of_ascii {c : Byte} (h : c.toNat < 0x80) : isLeading c = true := by
  simp only [isLeading, Bool.or_eq_true, decide_eq_true_eq]
  left
  rw [UInt8.lt_iff_toNat_lt]
  exact h

theorem backToLeading_ascii {buf : Bytes} (h : ∀ c ∈ buf, c.toNat < 0x80) : ∀ n, n < buf.length → backToLeading buf n = n := by
  intro n hn
  cases n with
  | zero => rfl
  | succ n =>
    unfold backToLeading
    rw [List.getElem?_eq_getElem hn]
    simp only [Option.map_some, Option.getD_some]
    rw [if_pos (leading_of_ascii (h _ (List.getElem_mem hn)))]

/-- The segment that is written. -/
theorem segment_skim {b : Buffer} (hok : b.nBytes ≤ b.buf.length) {q : Byte} {jt : Bytes} (hv : b.valid = q :: jt) (hq : q ≠ 92)
    {j : Nat} (hraw : rawString jt 0 = .error (.eofWhileParsingString, j)) (hlt : segmentEnd b < b.buf.length)
    (hsafe : (∀ c ∈ b.buf, c.toNat < 0x80) ∨ 92 ∉ jt) {g : Nat} (hg : backToLeading b.buf (segmentEnd b) = g + 1) (h1 : 0 < g) :
    Skim true (jt.take g) := by
  rcases hsafe with ha | hn
  · rw [backToLeading_ascii ha _ hlt] at hg
    have hvl := valid_length hok
    unfold segmentEnd at hg
    cases hf : b.valid.findIdx? (· == 92) with
    | none =>
      refine (rawString_noEsc jt 0 j hraw g ?_).widen _
      intro hm
      rw [List.findIdx?_eq_none_iff] at hf
      have := hf 92 (by rw [hv]; exact List.mem_cons_of_mem _ (List.mem_of_mem_take hm))
      simp at this
    | some bs =>
      rw [hf] at hg
      simp only at hg
      rw [List.findIdx?_eq_some_iff_getElem] at hf
      obtain ⟨hbs, hb1, hb2⟩ := hf
      by_cases hgt : bs > 1
      · rw [if_pos hgt] at hg
        refine (rawString_noEsc jt 0 j hraw g ?_).widen _
        intro hm
        obtain ⟨x, hx, hx2⟩ := List.mem_iff_getElem.mp hm
        rw [List.length_take] at hx
        have := hb2 (x + 1) (by omega)
        rw [List.getElem_take] at hx2
        apply this
        simp only [hv, List.getElem_cons_succ, hx2, beq_self_eq_true]
      · rw [if_neg hgt] at hg
        have hb1' : bs = 1 := by
          rcases Nat.eq_or_lt_of_le (Nat.not_lt.mp hgt) with h | h
          · exact h
          · exfalso
            have h0 : bs = 0 := by omega
            subst h0
            simp only [hv, List.getElem_cons_zero, beq_iff_eq] at hb1
            exact hq hb1
        subst hb1'
        -- the string starts with an escape
        cases jt with
        | nil => rw [hv] at hbs; simp at hbs
        | cons x jt =>
          simp only [hv, List.getElem_cons_succ, List.getElem_cons_zero, beq_iff_eq] at hb1
          subst hb1
          by_cases h3 : b.nBytes < 3
          · rw [if_pos h3] at hg; omega
          · rw [if_neg h3] at hg
            cases jt with
            | nil => rw [hv] at hvl; simp at hvl; omega
            | cons e jt =>
              have hbuf2 : b.buf[2]? = some e := by
                have h2 : b.valid[2]? = some e := by rw [hv]; rfl
                rw [Buffer.valid, List.getElem?_take_of_lt (by omega)] at h2
                exact h2
              have hesc := rawString_esc hraw
              rw [hbuf2] at hg
              simp only at hg
              by_cases hu : e ≠ 117 ∧ e ≠ 85
              · rw [if_pos hu] at hg
                rw [show g = 2 by omega]
                exact .esc e _ hesc .nil
              · rw [if_neg hu] at hg
                have he : e = 117 := by
                  apply Classical.byContradiction
                  intro h117
                  apply hu
                  refine ⟨h117, ?_⟩
                  intro h85
                  rw [h85] at hesc
                  revert hesc
                  decide
                subst he
                by_cases h7 : b.nBytes < 7
                · rw [if_pos h7] at hg; omega
                · rw [if_neg h7] at hg
                  rw [show g = 6 by omega]
                  rw [hv] at hvl
                  simp only [List.length_cons] at hvl
                  match jt, hvl with
                  | [], h => simp at h; omega
                  | [_], h => simp at h; omega
                  | [_, _], h => simp at h; omega
                  | [_, _, _], h => simp at h; omega
                  | a :: b' :: c :: d :: t, _ => exact .uni a b' c d _ rfl .nil
  · refine (rawString_noEsc jt 0 j hraw g ?_).widen _
    exact fun hm => hn (List.mem_of_mem_take hm)

/-- The bytes consumed so far. -/
structure SkimDone (strict : Prop) (s0 s : RJ) (m : Nat) : Prop where
  le : 0 < m → 1 + m ≤ s0.rest.length
  weak : Weak ((s0.rest.drop 1).take m)
  skim : strict → Skim true ((s0.rest.drop 1).take m)
  safe : strict → AllBytes (fun c => c.toNat < 0x80) s.b ∨ 92 ∉ s0.rest

theorem handleLong_skim (strict : Prop) (s0 : RJ) (hq : ∀ q t, s0.rest = q :: t → q ≠ 92) : ∀ (fuel : Nat) (s : RJ) (w : Writer) (m : Nat),
    ((s = s0 ∧ s0.Sync ∧ m = 0) ∨ LongInv s0 s m) → SkimDone strict s0 s m → ∀ s' w', handleLong .raw fuel s w = ((s', w'), .ok ()) →
    ∃ q body t, s0.rest = q :: (body ++ 34 :: t) ∧ s0.Moved s' (body.length + 2) ∧ Weak body ∧ (strict → Skim true body) := by
  intro fuel
  induction fuel with
  | zero => intro s w m _ _ s' w' h; simp [handleLong] at h
  | succ fuel ih =>
    intro s w m hs hd s' w' hh
    have hsync : s.Sync := by
      rcases hs with ⟨rfl, h, _⟩ | h
      · exact h
      · exact ⟨h.ok, h.jlen, by rw [h.jidx]; exact Nat.zero_le _⟩
    have hsrest : s.rest = s0.rest.take 1 ++ s0.rest.drop (1 + m) := by
      rcases hs with ⟨rfl, h, rfl⟩ | h
      · rw [Nat.add_zero, List.take_append_drop]
      · rw [← h.rest, RJ.rest, h.jidx]
    have hjr : s.rest = s.jdata ++ s.b.reader.pending := rest_eq hsync
    rw [handleLong_succ] at hh
    rcases hp : Kind.raw.parser s.jdata with ⟨n, r⟩
    rw [hp] at hh
    cases r with
    | ok v =>
      simp only at hh
      rcases hw : w.writeAll v with ⟨w1, b⟩
      rw [hw] at hh
      cases b
      rotate_left
      · simp at hh
      · simp only [Prod.mk.injEq, and_true] at hh
        obtain ⟨rfl, rfl⟩ := hh
        obtain ⟨h2, hle, _⟩ := Kind.raw.parser_prefix _ _ _ hp
        rw [jdata_length hsync] at hle
        obtain ⟨hsk, t, hb, hn⟩ := knownBytes_skim (show Jiter.knownBytes s.jdata = (n, .ok v) from hp)
        have hm : s0.Moved { s with jidx := s.jidx + n } (m + n) := by
          rcases hs with ⟨rfl, h, rfl⟩ | h
          · rw [Nat.zero_add]; exact Moved.inside h (by have := h.idx; omega)
          · exact h.moved h2 (by omega)
        have hjl := jdata_length hsync
        cases hj : s.jdata with
        | nil => rw [hj] at hjl; simp at hjl; omega
        | cons q jt =>
          rw [hj, List.drop_succ_cons, List.drop_zero] at hb
          have hrest1 : s.rest = q :: (v ++ 34 :: (t ++ s.b.reader.pending)) := by
            rw [hjr, hj, hb]; simp
          rw [hsrest] at hrest1
          have hxw := hd.skim
          have hxk := hd.weak
          cases hr0 : s0.rest with
          | nil => rw [hr0] at hrest1; simp at hrest1
          | cons q0 r0 =>
            rw [hr0] at hrest1 hxw hxk
            simp only [List.take_succ_cons, List.take_zero, List.cons_append, List.nil_append, List.cons.injEq] at hrest1
            obtain ⟨rfl, h3⟩ := hrest1
            rw [show 1 + m = m + 1 by omega, List.drop_succ_cons] at h3
            rw [List.drop_succ_cons, List.drop_zero] at hxw hxk
            refine ⟨q0, r0.take m ++ v, t ++ s.b.reader.pending, ?_, ?_, hxk.append hsk.weak, fun hs => (hxw hs).append (hsk.widen _)⟩
            · rw [List.append_assoc, ← h3, List.take_append_drop]
            · have : (r0.take m ++ v).length + 2 = m + n := by
                have hle2 := hd.le
                rw [hr0, List.length_cons] at hle2
                rw [List.length_append, List.length_take]
                omega
              rw [this]; exact hm
    | error e =>
      have hn := Kind.raw.parser_error hp
      subst hn
      simp only [Nat.add_zero] at hh
      by_cases hr : (!canRetry e.type) = true
      · rw [if_pos hr] at hh; simp at hh
      · rw [if_neg hr] at hh
        obtain ⟨j, hraw⟩ := knownBytes_more (show Jiter.knownBytes s.jdata = (0, .error e) from hp) (by simpa using hr)
        -- the string is at the start of the buffer
        have hinv : LongInv s0 (if s.jidx > 0 then ({ s with b := s.b.shift 0 s.jidx, jidx := s.jidx } : RJ).refresh
            else { s with jidx := s.jidx }) m ∧ (if s.jidx > 0 then ({ s with b := s.b.shift 0 s.jidx, jidx := s.jidx } : RJ).refresh
            else { s with jidx := s.jidx }).b.valid = s.jdata ∧
            SkimDone strict s0 (if s.jidx > 0 then ({ s with b := s.b.shift 0 s.jidx, jidx := s.jidx } : RJ).refresh
            else { s with jidx := s.jidx }) m := by
          by_cases h0 : s.jidx > 0
          · rw [if_pos h0]
            rcases hs with ⟨rfl, h, rfl⟩ | h
            · refine ⟨LongInv.ofFrame (s := ({ s with b := s.b.shift 0 s.jidx, jidx := s.jidx } : RJ).refresh)
                (Frame.shift0 h.ok h.idx) rfl rfl, ?_, hd.le, hd.weak, hd.skim, fun hs => (hd.safe hs).imp (fun h => h.shift _ _) id⟩
              show (s.b.shift 0 s.jidx).valid = _
              rw [(s.b.shift_spec h.ok (Nat.zero_le _)).1, jdata_eq h]
              rfl
            · have := h.jidx; omega
          · rw [if_neg h0]
            have hj0 : s.jidx = 0 := by omega
            refine ⟨?_, ?_, hd.le, hd.weak, hd.skim, hd.safe⟩
            · rcases hs with ⟨rfl, h, rfl⟩ | h
              · refine LongInv.ofFrame (s := { s with jidx := s.jidx }) ?_ h.len hj0
                have : Frame s.b s.b s.jidx s.jidx := Frame.refl h.ok h.idx
                rwa [hj0] at this ⊢
              · exact h
            · show s.b.valid = _
              rw [jdata_eq hsync, hj0]; rfl
        clear hd
        revert hinv hh
        generalize (if s.jidx > 0 then ({ s with b := s.b.shift 0 s.jidx, jidx := s.jidx } : RJ).refresh
            else { s with jidx := s.jidx }) = s2
        intro hh ⟨hinv, hval, hd⟩
        unfold longRound at hh
        have hseg := segmentEnd_le hinv.ok
        by_cases hpan : s2.b.buf.length ≤ segmentEnd s2.b
        · rw [if_pos hpan] at hh; simp at hh
        · rw [if_neg hpan] at hh
          have hbl := backToLeading_le s2.b.buf (segmentEnd s2.b)
          generalize hsg : backToLeading s2.b.buf (segmentEnd s2.b) = seg at hbl hh
          have hvl := valid_length hinv.ok
          -- the rest of the round
          have hgen : ∀ (b3 : Buffer) (m' : Nat) (w1 : Writer), LongInv s0 ⟨b3, b3.nBytes, s2.jidx⟩ m' →
              SkimDone strict s0 ⟨b3, b3.nBytes, s2.jidx⟩ m' →
              (match b3.readMore with
                | (b4, .ok n) =>
                  if n = 0 then
                    (({ s2 with b := b4 }, w1),
                      .err (.fromJiter ({ s2 with b := b4 } : RJ).currentIndex e.type (s.jidx + e.index)))
                  else handleLong .raw fuel ({ s2 with b := b4 } : RJ).refresh w1
                | (b4, .err er) => (({ s2 with b := b4 }, w1), .err er)
                | (b4, .panic) => (({ s2 with b := b4 }, w1), .panic)
                | (b4, .diverge) => (({ s2 with b := b4 }, w1), .diverge)) = ((s', w'), Res.ok ()) →
              ∃ q body t, s0.rest = q :: (body ++ 34 :: t) ∧ s0.Moved s' (body.length + 2) ∧ Weak body ∧ (strict → Skim true body) := by
            intro b3 m' w1 hinv3 hd3 hm
            have hrd := hinv3.read
            have hsf := fun hs => (hd3.safe hs).imp (fun h => h.readMore hinv3.ok) id
            rcases hrm : b3.readMore with ⟨b4, res⟩
            simp only [hrm] at hm hrd hsf
            cases res with
            | ok n =>
              simp only at hm
              by_cases hn0 : n = 0
              · rw [if_pos hn0] at hm; simp at hm
              · rw [if_neg hn0] at hm
                exact ih _ _ m' (.inr hrd) ⟨hd3.le, hd3.weak, hd3.skim, hsf⟩ _ _ hm
            | err er => simp at hm
            | panic => simp at hm
            | diverge => simp at hm
          by_cases h1 : seg > 1
          · simp only [h1, if_true] at hh
            rcases hws : writeSegment .raw s2.b.buf seg s2.currentIndex w with ⟨w1, res⟩
            rw [hws] at hh
            cases res with
            | ok u =>
              simp only at hh
              refine hgen _ _ _ (hinv.shift h1 (by omega)) ?_ hh
              cases hv : s2.b.valid with
              | nil => rw [hv] at hvl; simp at hvl; omega
              | cons q jt =>
                obtain ⟨g, rfl⟩ : ∃ g, seg = g + 1 := ⟨seg - 1, by omega⟩
                have hxw := hd.skim
                have hxk := hd.weak
                have hrest2 := hinv.rest
                rw [Buffer.rest, List.drop_zero, hv] at hrest2
                rw [← hval, hv, List.drop_succ_cons, List.drop_zero] at hraw
                cases hr0 : s0.rest with
                | nil => rw [hr0] at hrest2; simp at hrest2
                | cons q0 r0 =>
                  rw [hr0] at hrest2 hxw hxk
                  simp only [List.take_succ_cons, List.take_zero, List.cons_append, List.nil_append, List.cons.injEq] at hrest2
                  obtain ⟨rfl, h3⟩ := hrest2
                  rw [show 1 + m = m + 1 by omega, List.drop_succ_cons] at h3
                  rw [List.drop_succ_cons, List.drop_zero] at hxw hxk
                  have hgl : g ≤ jt.length := by rw [hv, List.length_cons] at hvl; omega
                  have hjt : jt.take g = (r0.drop m).take g := by
                    rw [← h3, List.take_append_of_le_length hgl]
                  have hl3 := congrArg List.length h3
                  rw [List.length_append, List.length_drop] at hl3
                  have hsk := fun hs : strict => segment_skim hinv.ok hv (hq _ _ hr0) hraw (by omega) (by
                    rcases hd.safe hs with h | h
                    · exact .inl h.1
                    · refine .inr fun hm => h ?_
                      rw [hr0]
                      refine List.mem_cons_of_mem _ (List.mem_of_mem_drop (i := m) ?_)
                      rw [← h3]
                      exact List.mem_append_left _ hm) hsg (by omega)
                  have hwk := rawString_weak _ _ _ _ (Nat.le_refl _) hraw g
                  rw [hjt] at hsk hwk
                  refine ⟨?_, ?_, fun hs => ?_, fun hs => (hd.safe hs).imp (fun h => h.shift _ _) id⟩
                  · intro _
                    rw [hr0, List.length_cons]; omega
                  · rw [hr0, List.drop_succ_cons, List.drop_zero, Nat.add_sub_cancel, List.take_add]
                    exact hxk.append hwk
                  · rw [hr0, List.drop_succ_cons, List.drop_zero, Nat.add_sub_cancel, List.take_add]
                    exact (hxw hs).append (hsk hs)
            | err er => simp at hh
            | panic => simp at hh
            | diverge => simp at hh
          · simp only [h1, if_false] at hh
            exact hgen s2.b m w (by rw [← hinv.jlen]; exact hinv) ⟨hd.le, hd.weak, hd.skim, hd.safe⟩ hh

end Verif.RJiter
