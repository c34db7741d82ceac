import Verif.RJiter.StepSound
import Verif.Scan.Modes

/-!
# What the parser calls made by `scan` do when the input is cut off

`s.rest ++ y` is the document, `y` is what is missing.
-/

namespace Verif.Scan

open Verif.RJiter RJ Jiter

/-- The characters of numbers. -/
def NumByte (c : Byte) : Prop := Digit c ∨ c = 46 ∨ c = 101 ∨ c = 69 ∨ c = 43 ∨ c = 45

/-- Nothing, or something that starts with a character of a number. -/
def Sticks (r : Bytes) : Prop := ∀ c, r.head? = some c → NumByte c

/-- Nothing, or something that starts with another character. -/
def Follow (r : Bytes) : Prop := ∀ c, r.head? = some c → ¬ NumByte c

theorem number_bytes {l : Bytes} (h : Number l) : ∀ c ∈ l, NumByte c := by
  obtain ⟨m, i, f, e, rfl, hm, hi, hf, he⟩ := h
  intro c hc
  simp only [List.mem_append] at hc
  rcases hc with hc | hc | hc | hc
  · rcases hm with rfl | rfl
    · simp at hc
    · simp at hc; subst hc; simp [NumByte]
  · rcases hi with rfl | ⟨hi, _⟩
    · simp at hc; subst hc; left; unfold Digit; decide
    · exact .inl (hi.2 c hc)
  · rcases hf with rfl | ⟨ds, rfl, hd⟩
    · simp at hc
    · rcases List.mem_cons.mp hc with rfl | hc
      · simp [NumByte]
      · exact .inl (hd.2 c hc)
  · rcases he with rfl | ⟨ec, sg, ds, rfl, h1, h2, hd⟩
    · simp at hc
    · rcases List.mem_cons.mp hc with rfl | hc
      · rcases h1 with rfl | rfl <;> simp [NumByte]
      · rcases List.mem_append.mp hc with hc | hc
        · rcases h2 with rfl | rfl | rfl
          · simp at hc
          · simp at hc; subst hc; simp [NumByte]
          · simp at hc; subst hc; simp [NumByte]
        · exact .inl (hd.2 c hc)

/-- The parser state between two calls on a document that is cut off. -/
abbrev CInv (ascii : Bool) (F : Nat) (s : RJ) : Prop := Inv (streamMode ascii false 0) 0 F s

/-- The rules for documents: strings may have backslashes in ASCII input only (C20). -/
def cutRules (ascii : Bool) : Rules :=
  .json (fun _ => True) (fun body => ascii = true ∨ 92 ∉ body) (fun _ _ => True) (fun _ _ _ _ => True)

variable {ascii : Bool} {F : Nat} {s s' : RJ} {y x : Bytes}

theorem cons_of_append {r y : Bytes} {c : Byte} {t : Bytes} (h : r ++ y = c :: t) (hr : r ≠ []) :
    ∃ r', r = c :: r' ∧ r' ++ y = t := by
  cases r with
  | nil => exact absurd rfl hr
  | cons a r' =>
    simp only [List.cons_append, List.cons.injEq] at h
    exact ⟨r', by rw [h.1], h.2⟩

/-- A word, behind its first byte `c`. -/
theorem word_cut {α : Type} {c : Byte} {w : Bytes} {v u : α} {f : JFn α} (hf : ∀ d, f d = consumeIdent w v d)
    (h : CInv ascii F s) (hc : ¬ Space c) (hff : c ≠ 12) (hr : s.rest ++ y = (c :: w) ++ x) (hne : s.rest ≠ [])
    (hok : s.loopUntilSuccess F f none false = (s', .ok u)) (hre : Reach s.b s'.b)
    (hs : JSound f none) (hst : Still f) (hx : Ext f) :
    CInv ascii F s' ∧ s'.rest ++ y = x := by
  obtain ⟨r', e1, e2⟩ := cons_of_append (by simpa using hr) hne
  obtain ⟨n, h1, h2⟩ := known_complete hs hst hx h.sync h.fuel (by have := h.eight; omega) e1 hc hff hok
  rw [hf] at h1
  obtain ⟨_, rfl, t, h3⟩ := consumeIdent_ok h1
  refine ⟨h.moved h2 hre, ?_⟩
  rw [e1, List.drop_succ_cons, List.drop_zero] at h3
  rw [h2.rest, e1, h3, Nat.add_comm, List.drop_succ_cons, List.drop_left]
  rw [h3, List.append_assoc] at e2
  exact List.append_cancel_left e2

theorem null_cut (h : CInv ascii F s) (hr : s.rest ++ y = [110, 117, 108, 108] ++ x) (hne : s.rest ≠ []) {u : Unit}
    (hok : s.knownNull F = (s', .ok u)) : CInv ascii F s' ∧ s'.rest ++ y = x := by
  refine word_cut (w := [117, 108, 108]) (v := ()) (f := Jiter.knownNull) (fun _ => rfl) h (c := 110) (by unfold Space; decide) (by decide) hr hne
    hok (h.reach_op .knownNull (r := .ok ()) (by simp [Op.run, hok, Res.void])) (PrefixFn.jsound knownNull_prefix)
    (consumeIdent_still _ _) knownNull_ext

theorem true_cut (h : CInv ascii F s) (hr : s.rest ++ y = [116, 114, 117, 101] ++ x) (hne : s.rest ≠ []) {u : Bool}
    (hok : s.knownBool F 116 = (s', .ok u)) : CInv ascii F s' ∧ s'.rest ++ y = x := by
  refine word_cut (w := [114, 117, 101]) (v := .true) (f := Jiter.knownBool 116) (fun _ => rfl) h (c := 116) (by unfold Space; decide)
    (by decide) hr hne
    hok (h.reach_op (.knownBool 116) (r := .ok ()) (by simp [Op.run, hok, Res.void])) (PrefixFn.jsound (knownBool_prefix _))
    (knownBool_still _) (knownBool_ext _)

theorem false_cut (h : CInv ascii F s) (hr : s.rest ++ y = [102, 97, 108, 115, 101] ++ x) (hne : s.rest ≠ []) {u : Bool}
    (hok : s.knownBool F 102 = (s', .ok u)) : CInv ascii F s' ∧ s'.rest ++ y = x := by
  refine word_cut (w := [97, 108, 115, 101]) (v := .false) (f := Jiter.knownBool 102) (fun _ => rfl) h (c := 102) (by unfold Space; decide)
    (by decide) hr hne
    hok (h.reach_op (.knownBool 102) (r := .ok ()) (by simp [Op.run, hok, Res.void])) (PrefixFn.jsound (knownBool_prefix _))
    (knownBool_still _) (knownBool_ext _)

theorem CInv.staleSafe (h : CInv ascii F s) {body : Bytes} (hs : ascii = true ∨ 92 ∉ body) : StaleSafe s body := by
  rcases hs with hs | hs
  · have hi := h.inv.1 hs
    refine .inr (.inl ⟨hi.1, ?_⟩)
    intro c hc
    have hc' : c ∈ s.b.valid.drop s.jidx ++ s.b.reader.pending := hc
    rcases List.mem_append.mp hc' with hc | hc
    · exact hi.1 c (List.mem_of_mem_take (List.mem_of_mem_drop hc))
    · exact hi.2 c hc
  · exact .inl hs

/-- A call that succeeds does the same to the parser with a writer that never fails. -/
theorem handleLong_writer (k : RJ.Kind) : ∀ (fuel : Nat) (s : RJ) (w w0 : Writer), w0.plan = [] →
    ∀ {s' : RJ} {w' : Writer}, RJ.handleLong k fuel s w = ((s', w'), .ok ()) → ∃ w1, RJ.handleLong k fuel s w0 = ((s', w1), .ok ()) := by
  have clean : ∀ (w0 : Writer) (bs : Bytes), w0.plan = [] → w0.writeAll bs = (⟨w0.out ++ bs, []⟩, none) := by
    rintro ⟨out, plan⟩ bs rfl; rfl
  intro fuel
  induction fuel with
  | zero => intro s w w0 h s' w' hok; simp [RJ.handleLong] at hok
  | succ fuel ih =>
    intro s w w0 h s' w' hok
    unfold RJ.handleLong at hok ⊢
    revert hok
    rcases s.call k.parser with ⟨s1, e | v⟩ <;> intro hok
    · simp only at hok ⊢
      split at hok
      · simp at hok
      · rename_i hr
        rw [if_neg hr]
        generalize (if s1.jidx > 0 then ({ s1 with b := s1.b.shift 0 s1.jidx } : RJ).refresh else s1) = s2 at hok ⊢
        split at hok
        · simp at hok
        · rename_i hle
          rw [if_neg hle]
          generalize RJ.backToLeading s2.b.buf (RJ.segmentEnd s2.b) = seg at hok ⊢
          have hseg : ∀ w2, (if seg > 1 then RJ.writeSegment k s2.b.buf seg s2.currentIndex w else (w, .ok ())) = (w2, .ok ()) →
              ∃ w3 : Writer, (if seg > 1 then RJ.writeSegment k s2.b.buf seg s2.currentIndex w0 else (w0, .ok ())) = (w3, .ok ()) ∧ w3.plan = [] := by
            intro w2 h2
            by_cases h1 : seg > 1
            · rw [if_pos h1] at h2 ⊢
              cases k with
              | raw =>
                simp only [RJ.writeSegment, clean _ _ h]
                exact ⟨_, rfl, rfl⟩
              | str =>
                simp only [RJ.writeSegment] at h2 ⊢
                revert h2
                rcases Jiter.knownStr (s2.b.buf.take seg ++ [34]) with ⟨n, er | v⟩ <;> intro h2
                · simp at h2
                · simp only [clean _ _ h]
                  exact ⟨_, rfl, rfl⟩
            · rw [if_neg h1]
              exact ⟨_, rfl, h⟩
          revert hok hseg
          rcases (if seg > 1 then RJ.writeSegment k s2.b.buf seg s2.currentIndex w else (w, .ok ())) with ⟨w1, _ | er | _ | _⟩
          · intro hok hseg
            obtain ⟨w3, e3, h3⟩ := hseg w1 rfl
            rw [e3]
            simp only at hok ⊢
            revert hok
            rcases (if seg > 1 then s2.b.shift 1 seg else s2.b).readMore with ⟨b4, n | _ | _ | _⟩ <;> intro hok
            · simp only at hok ⊢
              split at hok
              · simp at hok
              · rename_i hn
                rw [if_neg hn]
                exact ih _ _ _ h3 hok
            · simp at hok
            · simp at hok
            · simp at hok
          · intro hok; simp at hok
          · intro hok; simp at hok
          · intro hok; simp at hok
    · simp only [clean _ _ h] at hok ⊢
      revert hok
      rcases w.writeAll v with ⟨w1, _ | k⟩ <;> intro hok
      · simp only [Prod.mk.injEq, and_true] at hok
        exact ⟨_, by rw [hok.1]⟩
      · simp at hok

theorem string_cut (h : CInv ascii F s) {body : Bytes} (hb : RawBody body) (hs : ascii = true ∨ 92 ∉ body)
    (hr : s.rest ++ y = (34 :: (body ++ [34])) ++ x) (hne : s.rest ≠ []) {w w' : Writer}
    (hok : s.writeLongBytes F w = ((s', w'), .ok ())) : CInv ascii F s' ∧ s'.rest ++ y = x := by
  obtain ⟨w1, hok⟩ : ∃ w1, s.writeLongBytes F ⟨[], []⟩ = ((s', w1), .ok ()) := handleLong_writer .raw F s w _ rfl hok
  obtain ⟨p, e1, e2⟩ := cons_of_append (by simpa using hr) hne
  -- is the string complete?
  by_cases hl : body.length + 1 ≤ p.length
  · obtain ⟨t, rfl⟩ : ∃ t, p = body ++ 34 :: t := by
      have h1 : p = (body ++ 34 :: x).take p.length := by rw [← e2, List.take_left]
      obtain ⟨j, hj⟩ : ∃ j, p.length = body.length + (j + 1) := ⟨p.length - body.length - 1, by omega⟩
      rw [hj, List.take_append, List.take_of_length_le (by omega), show body.length + (j + 1) - body.length = j + 1 by omega,
        List.take_succ_cons] at h1
      exact ⟨_, h1⟩
    obtain ⟨s2, w2, e, _, hi, hm, _⟩ := h.string ⟨[], []⟩ hb hs rfl e1
    rw [e] at hok
    simp only [Prod.mk.injEq, and_true] at hok
    obtain ⟨rfl, _⟩ := hok
    refine ⟨hi, ?_⟩
    have e3 : t ++ y = x := by
      rw [List.append_assoc, List.cons_append] at e2
      have := List.append_cancel_left e2
      simpa using this
    rw [rest_after (a := 34 :: (body ++ [34])) hm (t := t) (by rw [e1]; simp) (by simp)]
    exact e3
  · exfalso
    obtain ⟨z, hz⟩ : ∃ z, body = p ++ z := by
      have h1 : p = (body ++ 34 :: x).take p.length := by rw [← e2, List.take_left]
      rw [List.take_append_of_le_length (by omega)] at h1
      exact ⟨body.drop p.length, by conv => lhs; rw [← List.take_append_drop p.length body, ← h1]⟩
    rw [hz] at hb hs
    exact handleLong_cut_safe .raw s F _ p z (p ++ z) h.sync h.eight e1 hb.long (h.staleSafe hs) _ hok

theorem number_cut (h : CInv ascii F s) {tok : Bytes} (hn : Number tok) (hfol : Follow x) (hr : s.rest ++ y = tok ++ x)
    {v : Bytes} (hok : s.nextNumberBytes F = (s', .ok v)) :
    CInv ascii F s' ∧ (s'.rest ++ y = x ∨ Sticks s'.rest) := by
  obtain ⟨ws, t, h1, h2, h3, h4, _⟩ := C44_next_number s F h.sync (by have := h.eight; omega) h.fuel s' v hok
  refine ⟨h.moved h4 (h.reach_op .nextNumberBytes (r := .ok ()) (by simp [Op.run, hok, Res.void])), ?_⟩
  have hws : ws = [] := by
    cases ws with
    | nil => rfl
    | cons a ws =>
      obtain ⟨c, r, e, hc⟩ := number_first hn
      rw [h1, e] at hr
      simp only [List.cons_append, List.cons.injEq] at hr
      obtain ⟨c', r', e', hc', hff, _⟩ := atom_first (IsAtom.number (num := fun _ => True) (str := fun _ => True) tok hn trivial)
      rw [e] at e'
      simp only [List.cons.injEq] at e'
      rcases h2 a (by simp) with ha | ha
      · rw [hr.1, e'.1] at ha; exact absurd ha hc'
      · rw [hr.1, e'.1] at ha; exact absurd ha hff
  subst hws
  rw [List.nil_append] at h1
  have hrest : s'.rest = t := rest_after h4 h1 (by simp)
  rw [hrest]
  rw [h1, List.append_assoc] at hr
  rcases List.append_eq_append_iff.mp hr with ⟨u, e1, e2⟩ | ⟨u, e1, e2⟩
  · -- the number is longer
    cases u with
    | nil => left; simpa using e2
    | cons c u =>
      right
      cases t with
      | nil => intro c hc; simp at hc
      | cons d t =>
        simp only [List.cons_append, List.cons.injEq] at e2
        intro c' hc'
        simp only [List.head?_cons, Option.some.injEq] at hc'
        rw [← hc', e2.1]
        exact number_bytes hn c (by rw [e1]; simp)
  · cases u with
    | nil => left; simpa using e2.symm
    | cons c u =>
      exfalso
      exact hfol c (by rw [e2]; simp) (number_bytes h3 c (by rw [e1]; simp))

/-- `skip_basic_values`, if it succeeds: it consumed the atom, or a part of a number. -/
theorem skipBasic_cut (h : CInv ascii F s) {tok r : Bytes} {c : Byte}
    (ha : IsAtom (fun _ => True) (fun body => ascii = true ∨ 92 ∉ body) tok) (hc : tok = c :: r) (hfol : Number tok → Follow x)
    (hr : s.rest ++ y = tok ++ x) (hne : s.rest ≠ []) (hok : skipBasic F c s = (s', .ok ())) :
    CInv ascii F s' ∧ (s'.rest ++ y = x ∨ Number tok ∧ Sticks s'.rest) := by
  have drop : ∀ {α : Type} {z : RJ × Res α}, dropValue z = (s', .ok ()) → ∃ v, z = (s', .ok v) := by
    intro α ⟨z1, z2⟩ hz
    simp only [dropValue, Prod.mk.injEq] at hz
    obtain ⟨rfl, hz⟩ := hz
    cases z2 with
    | ok v => exact ⟨v, rfl⟩
    | err e => simp at hz
    | panic => simp at hz
    | diverge => simp at hz
  unfold skipBasic at hok
  cases ha with
  | null =>
    simp only [List.cons.injEq] at hc
    obtain ⟨rfl, rfl⟩ := hc
    rw [if_neg (by decide), if_pos rfl] at hok
    obtain ⟨v, hv⟩ := drop hok
    exact ⟨(null_cut h hr hne hv).1, .inl (null_cut h hr hne hv).2⟩
  | true =>
    simp only [List.cons.injEq] at hc
    obtain ⟨rfl, rfl⟩ := hc
    rw [if_neg (by decide), if_neg (by decide), if_pos (by decide)] at hok
    obtain ⟨v, hv⟩ := drop hok
    exact ⟨(true_cut h hr hne hv).1, .inl (true_cut h hr hne hv).2⟩
  | false =>
    simp only [List.cons.injEq] at hc
    obtain ⟨rfl, rfl⟩ := hc
    rw [if_neg (by decide), if_neg (by decide), if_pos (by decide)] at hok
    obtain ⟨v, hv⟩ := drop hok
    exact ⟨(false_cut h hr hne hv).1, .inl (false_cut h hr hne hv).2⟩
  | string body hb hs =>
    simp only [List.cons.injEq] at hc
    obtain ⟨rfl, rfl⟩ := hc
    rw [if_pos rfl] at hok
    obtain ⟨v, hv⟩ := drop hok
    rcases hlb : s.writeLongBytes F ⟨[], []⟩ with ⟨⟨s2, w2⟩, r2⟩
    rw [hlb] at hv
    simp only [Prod.mk.injEq] at hv
    obtain ⟨rfl, rfl⟩ := hv
    have := string_cut h hb hs hr hne hlb
    exact ⟨this.1, .inl this.2⟩
  | number tok hn hl =>
    obtain ⟨c', r', e', hc'⟩ := number_first hn
    rw [hc] at e'
    simp only [List.cons.injEq] at e'
    obtain ⟨rfl, rfl⟩ := e'
    have hne' : c ≠ 34 ∧ c ≠ 110 ∧ ¬ (c = 116 ∨ c = 102) := by
      rcases hc' with rfl | ⟨h1, h2⟩
      · decide
      · have e1 : (48 : Nat) ≤ c.toNat := by simpa [UInt8.le_iff_toNat_le] using h1
        have e2 : c.toNat ≤ 57 := by simpa [UInt8.le_iff_toNat_le] using h2
        have ne : ∀ k : Byte, (k.toNat < 48 ∨ 57 < k.toNat) → c ≠ k := by
          intro k hk hck; subst hck; omega
        simp only [not_or]
        exact ⟨ne _ (by decide), ne _ (by decide), ne _ (by decide), ne _ (by decide)⟩
    rw [if_neg hne'.1, if_neg hne'.2.1, if_neg hne'.2.2] at hok
    rcases hnb : s.nextNumberBytes F with ⟨s2, r2⟩
    rw [hnb] at hok
    cases r2 with
    | ok v =>
      simp only [Prod.mk.injEq, and_true] at hok
      subst hok
      obtain ⟨h1, h2⟩ := number_cut h hn (hfol hn) hr hnb
      exact ⟨h1, h2.imp id fun h => ⟨hn, h⟩⟩
    | err e => simp at hok
    | panic => simp at hok
    | diverge => simp at hok

end Verif.Scan
