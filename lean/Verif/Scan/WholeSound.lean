import Verif.RJiter.PropsValue
import Verif.RJiter.Accept
import Verif.RJiter.ModelValue
import Verif.RJiter.WholeBound
import Verif.Scan.WholeNum

/-!
# What the functions that read a whole value accept
-/

namespace Verif.Scan

open Verif.RJiter Jiter
open Verif.RJiter.RJ (JSound norm rest_eq)
open Verif.RJiter.Buffer (isAsciiWs)

/-- What the decoders say. -/
structure DecodesTo (D : Decoders) (R : Reading) : Prop where
  str : ∀ d n s, D.str (34 :: d) = (n, .ok s) → ∃ body t, d = body ++ 34 :: t ∧ n = body.length + 2 ∧ R.str body s
  num : ∀ d n tok, D.num d = (n, .ok tok) → numberTok d = (n, .ok tok) ∧ R.num tok

theorem numberTok_text {d : Bytes} {n : Nat} {tok : Bytes} (h : numberTok d = (n, .ok tok)) :
    ∃ t, d = tok ++ t ∧ n = tok.length ∧ Number tok := by
  have hb := (numberTok_jsound.bound _ _ _ h).1
  simp only [numberTok] at h
  cases hn : numberEnd d with
  | error e => rw [hn] at h; simp [jerr] at h
  | ok m =>
    rw [hn] at h
    simp only [Prod.mk.injEq, Except.ok.injEq] at h
    obtain ⟨rfl, rfl⟩ := h
    exact ⟨d.drop m, (List.take_append_drop _ _).symm, by rw [List.length_take]; omega, numberEnd_ok hn⟩

/-- The number is the longest one. -/
theorem numberTok_longest {d : Bytes} {n : Nat} {tok : Bytes} (h : numberTok d = (n, .ok tok)) (hlt : n < d.length)
    {t b x y : Bytes} {c : Byte} (hd : d = tok ++ t) (hab : t ++ x = c :: b) : ¬ Number (tok ++ c :: y) := by
  intro hnum
  obtain ⟨_, _, hlen, _⟩ := numberTok_text h
  obtain ⟨g1, _⟩ := numberTok_good h hlt
  have g2 := g1.enough (n + 1) (Nat.le_refl _) hlt
  have e1 : d.take (n + 1) = (tok ++ c :: y).take (n + 1) := by
    have h1 : (d ++ x).take (n + 1) = d.take (n + 1) := List.take_append_of_le_length (by omega)
    rw [← h1, hd, List.append_assoc, hab, hlen, List.take_append, List.take_append]
    simp
  rw [e1] at g2
  simp only [numberTok] at g2
  rcases numberEnd_take hnum (k := n + 1) (by rw [List.length_append, List.length_cons]; omega) (by omega) with g3 | ⟨j, g3⟩
  · rw [g3] at g2
    simp only [Prod.mk.injEq] at g2
    omega
  · rw [g3] at g2; simp [jerr] at g2

theorem digits_append {i : Bytes} (h : ∀ c ∈ i, Digit c) (t : Bytes) : i.length ≤ digits (i ++ t) := by
  unfold digits
  rw [List.takeWhile_append_of_pos (fun c hc => (isDigit_iff c).mpr (h c hc)), List.length_append]
  omega

theorem intPart_all {i : Bytes} (h : IntPart i) : ∀ c ∈ i, Digit c := by
  rcases h with rfl | ⟨⟨_, h⟩, _⟩
  · intro c hc; simp at hc; subst hc; simp [Digit]
  · exact h

theorem sign_minus {m i fe : Bytes} (hm : m = [] ∨ m = [45]) (hi : IntPart i) : sign (m ++ (i ++ fe)) = m.length := by
  rcases hm with rfl | rfl
  · cases i with
    | nil => rcases hi with h | ⟨⟨h, _⟩, _⟩ <;> simp at h
    | cons d l =>
      have : Digit d := intPart_all hi d (by simp)
      simp only [List.nil_append, List.cons_append, sign]
      rw [if_neg]
      · rfl
      · rintro rfl; simp [Digit] at this
  · rfl

theorem numberAny_short {d : Bytes} {n : Nat} {tok : Bytes} (h : numberAny d = (n, .ok tok)) :
    numberTok d = (n, .ok tok) ∧ ShortInt tok := by
  simp only [numberAny] at h
  split at h
  · simp [jerr] at h
  · rename_i hle
    obtain ⟨t, rfl, _, m, i, f, e, rfl, hm, hi, hf, he⟩ := numberTok_text h
    refine ⟨h, m, i, f ++ e, rfl, hm, hi, ?_, ?_⟩
    · rw [List.append_assoc, List.append_assoc, sign_minus hm hi, List.drop_left] at hle
      have := digits_append (intPart_all hi) ((f ++ e) ++ t)
      omega
    · intro c hc
      rcases hf with rfl | ⟨ds, rfl, _⟩
      · rcases he with rfl | ⟨e, sg, ds, rfl, he, _⟩
        · simp at hc
        · simp only [List.nil_append, List.head?_cons, Option.some.injEq] at hc
          subst hc
          rcases he with rfl | rfl <;> simp [Digit]
      · simp only [List.cons_append, List.head?_cons, Option.some.injEq] at hc
        subst hc; simp [Digit]

theorem numberInt_int {d : Bytes} {n : Nat} {tok : Bytes} (h : numberInt d = (n, .ok tok)) :
    numberTok d = (n, .ok tok) ∧ IsInt tok := by
  have hfin : ∀ (c : Byte) (l : Bytes) (m : Bytes), d = m ++ c :: l → (m = [] ∨ m = [45]) → sign d = m.length →
      numberTok d = (n, .ok tok) ∧ IsInt tok := by
    intro c l m hd hm hsg
    have hdrop : d.drop (sign d) = c :: l := by rw [hsg, hd, List.drop_left]
    simp only [numberInt, hdrop, needDigit] at h
    by_cases hc : isDigit c = true
    · simp only [if_pos hc] at h
      have hg : d[sign d]? = some c := by
        have := congrArg List.head? hdrop
        rw [List.head?_drop] at this
        simpa using this
      split at h
      · simp [jerr] at h
      rename_i h43
      split at h
      · simp [jerr] at h
      rename_i h48
      -- the digits
      have hi : (c :: l).takeWhile isDigit ++ (c :: l).dropWhile isDigit = c :: l := List.takeWhile_append_dropWhile
      generalize hi1 : (c :: l).takeWhile isDigit = i at hi
      generalize hi2 : (c :: l).dropWhile isDigit = u at hi
      have hn : digits (c :: l) = i.length := by rw [← hi1]; rfl
      have hidig : ∀ b ∈ i, Digit b := by
        intro b hb
        rw [← hi1] at hb
        exact (isDigit_iff b).mp (List.all_eq_true.mp List.all_takeWhile b hb)
      have hic : i.head? = some c := by rw [← hi1, List.takeWhile_cons, if_pos hc]; rfl
      have hip : IntPart i := by
        by_cases h0 : c = 48
        · subst h0
          left
          have : i.length ≤ 1 := by
            rw [hg, hn] at h48
            simp only [true_and] at h48
            omega
          cases i with
          | nil => simp at hic
          | cons b i =>
            simp only [List.head?_cons, Option.some.injEq] at hic
            cases i with
            | nil => rw [hic]
            | cons _ _ => simp at this
        · right
          exact ⟨⟨by intro e; rw [e] at hic; simp at hic, hidig⟩, by rw [hic]; simpa using h0⟩
      have hu : ∀ b, u.head? = some b → ¬ Digit b := by
        intro b hb hdb
        have := List.head?_dropWhile_not isDigit (c :: l)
        rw [hi2, hb] at this
        simp only at this
        rw [(isDigit_iff b).mpr hdb] at this
        exact absurd this (by simp)
      have hd' : d = (m ++ i) ++ u := by rw [hd, ← hi, List.append_assoc]
      have hlen : sign d + digits (c :: l) = (m ++ i).length := by rw [hsg, hn, List.length_append]
      rw [hlen] at h
      have hrun : ∀ (hu2 : EndsNumber u), n = (m ++ i).length ∧ tok = d.take (m ++ i).length →
          numberTok d = (n, .ok tok) ∧ IsInt tok := by
        rintro hu2 ⟨rfl, rfl⟩
        have ht : d.take (m ++ i).length = m ++ i := by rw [hd', List.take_left]
        rw [ht]
        refine ⟨?_, m, i, rfl, hm, hip, by omega⟩
        have : Number (m ++ i) := ⟨m, i, [], [], by simp, hm, hip, .inl rfl, .inl rfl⟩
        rw [hd']; exact numberTok_spec this hu2
      have hdu : d.drop (m ++ i).length = u := by rw [hd', List.drop_left]
      rw [hdu] at h
      cases u with
      | nil =>
        simp only [Prod.mk.injEq, Except.ok.injEq] at h
        exact hrun (by intro b hb; simp at hb) ⟨h.1.symm, h.2.symm⟩
      | cons b u =>
        simp only at h
        split at h
        · simp at h
        · rename_i hb
          simp only [Prod.mk.injEq, Except.ok.injEq] at h
          refine hrun ?_ ⟨h.1.symm, h.2.symm⟩
          intro b' hb'
          simp only [List.head?_cons, Option.some.injEq] at hb'
          subst hb'
          refine ⟨hu _ rfl, fun e => hb (.inl e), fun e => hb (.inr (.inl e)), fun e => hb (.inr (.inr e))⟩
    · simp [hc, jerr] at h
  cases d with
  | nil => simp [numberInt, sign, needDigit, jerr] at h
  | cons c l =>
    by_cases h45 : c = 45
    · subst h45
      cases l with
      | nil => simp [numberInt, sign, needDigit, jerr] at h
      | cons c l => exact hfin c l [45] rfl (.inr rfl) rfl
    · exact hfin c l [] rfl (.inl rfl) (by simp [sign, h45])

theorem says_value : DecodesTo .value .value := by
  constructor
  · intro d n s h
    obtain ⟨body, t, h1, h2, hd, hu⟩ := knownStr_ok h
    obtain ⟨chars, rfl⟩ := utf8Valid_chars _ _ (Nat.le_refl _) hu
    exact ⟨body, t, by simpa using h1, h2, chars, hd.chars _ rfl, rfl⟩
  · intro d n tok h; exact numberAny_short h

theorem says_skip : DecodesTo .skip .rough := by
  constructor
  · intro d n s h
    obtain ⟨hs, t, h1, h2⟩ := knownBytes_skim h
    exact ⟨s, t, by simpa using h1, h2, hs, rfl⟩
  · intro d n tok h; exact ⟨h, trivial⟩

variable {α : Type} {D : Decoders} {B : Build α} {R : Reading}

theorem drop_app (a b : Bytes) {n : Nat} (h : n = a.length) : (a ++ b).drop n = b := by rw [h, List.drop_left]

/-- A key with its colon. -/
theorem objectKey_says (hD : DecodesTo D R) {t : Bytes} {m : Nat} {key : Bytes} (h : objectKey D.str (34 :: t) = (m, .ok key)) :
    ∃ k w u, t = k ++ 34 :: (w ++ 58 :: u) ∧ R.str k key ∧ Spaces w ∧ m = k.length + 2 + w.length + 1 := by
  simp only [objectKey] at h
  rcases hkd : D.str (34 :: t) with ⟨n, r⟩
  rw [hkd] at h
  cases r with
  | error e => simp at h
  | ok k' =>
    simp only at h
    obtain ⟨k, t', ht, hn, hs⟩ := hD.str _ _ _ hkd
    have hdrop : (34 :: t).drop n = t' := by
      rw [ht, show 34 :: (k ++ 34 :: t') = 34 :: (k ++ [34]) ++ t' by simp]
      exact drop_app _ _ (by simp [hn])
    rcases ws_split t' with hw | ⟨w, c, u, e, hw, hc⟩
    · rw [← List.drop_drop, hdrop, wsLen_all hw, List.drop_length] at h
      simp [jerr] at h
    · rw [← List.drop_drop, hdrop, e, wsLen_cons hw hc, List.drop_left] at h
      simp only at h
      by_cases h58 : c = 58
      · subst h58
        simp only [if_true, Prod.mk.injEq, Except.ok.injEq] at h
        obtain ⟨rfl, rfl⟩ := h
        exact ⟨k, w, u, by rw [ht, e], hs, spaces_of_ws hw, by omega⟩
      · rw [if_neg h58] at h
        simp [jerr] at h

theorem knownArray_item {d : Bytes} {n : Nat} {v : Option Byte} (h : knownArray d = (n, .ok v)) :
    ∃ x ws c t, d = x :: (ws ++ c :: t) ∧ Spaces ws ∧
      ((c = 93 ∧ v = none ∧ n = 1 + ws.length + 1) ∨ (v = some c ∧ n = 1 + ws.length)) := by
  obtain ⟨x, ws, c, t, rfl, hw, hc⟩ := knownArray_ok h
  have h1 := (knownArray_good x hw hc t).enough _ (by simp; omega) (Nat.le_refl _)
  rw [List.take_of_length_le (Nat.le_refl _), h] at h1
  simp only [Prod.mk.injEq, Except.ok.injEq] at h1
  refine ⟨x, ws, c, t, rfl, spaces_of_ws hw, ?_⟩
  by_cases h93 : c = 93
  · left; simp only [if_pos h93] at h1; exact ⟨h93, h1.2, h1.1⟩
  · right; simp only [if_neg h93] at h1; exact ⟨h1.2, h1.1⟩

/-- What is read is a document, and the result is its value. -/
theorem whole_says (hD : DecodesTo D R) : ∀ (F : Nat),
    (∀ depth pk d n x, value D B F depth pk (pk :: d) = (n, .ok x) →
      ∃ (v : Val) (t : Bytes), pk :: d = v.text ++ t ∧ n = v.text.length ∧ v.Gives R B x ∧ v.nesting ≤ depth) ∧
    (∀ depth pk d n l, items D B F depth pk (pk :: d) = (n, .ok l) →
      ∃ (v : Val) (a : Bytes) (more : Items) (t : Bytes), pk :: d = v.text ++ (a ++ (more.textMore ++ 93 :: t)) ∧
        n = v.text.length + (a.length + (more.textMore.length + 1)) ∧
        (Items.cons [] v a more).Gives R B l ∧ (Items.cons [] v a more).nesting ≤ depth + 1) ∧
    (∀ depth key d n l, members D B F depth key d = (n, .ok l) → ∀ b k m, Spaces b → Spaces m → R.str k key →
      ∃ (m' : Bytes) (v : Val) (a : Bytes) (more : Members) (t : Bytes), d = m' ++ (v.text ++ (a ++ (more.textMore ++ 125 :: t))) ∧
        n = m'.length + (v.text.length + (a.length + (more.textMore.length + 1))) ∧
        (Members.cons b k m m' v a more).Gives R B l ∧ (Members.cons b k m m' v a more).nesting ≤ depth + 1) := by
  have s0 : Spaces [] := by intro c hc; simp at hc
  intro F
  induction F with
  | zero => exact ⟨fun _ _ _ _ _ h => by simp [value, JFn.fail, jerr] at h, fun _ _ _ _ _ h => by simp [items, JFn.fail, jerr] at h,
      fun _ _ _ _ _ h => by simp [members, JFn.fail, jerr] at h⟩
  | succ F ih =>
    refine ⟨?_, ?_, ?_⟩
    · intro depth pk d n x h
      rw [value] at h
      split at h
      · rename_i hpk
        subst hpk
        obtain ⟨v, h1, rfl⟩ := map_eq_ok h
        obtain ⟨_, hn, t, ht⟩ := consumeIdent_ok h1
        exact ⟨.atom [110, 117, 108, 108], t, by simp only [List.drop_succ_cons, List.drop_zero] at ht; simp [ht, Val.text], hn,
          AtomGives.null, Nat.zero_le _⟩
      split at h
      · obtain ⟨v, h1, rfl⟩ := map_eq_ok h
        rename_i _ hpk
        rcases hpk with rfl | rfl
        · obtain ⟨rfl, hn, t, ht⟩ := consumeIdent_ok (show consumeIdent [114, 117, 101] true _ = _ from h1)
          exact ⟨.atom [116, 114, 117, 101], t, by simp only [List.drop_succ_cons, List.drop_zero] at ht; simp [ht, Val.text], hn,
            AtomGives.true, Nat.zero_le _⟩
        · obtain ⟨rfl, hn, t, ht⟩ := consumeIdent_ok (show consumeIdent [97, 108, 115, 101] false _ = _ from h1)
          exact ⟨.atom [102, 97, 108, 115, 101], t, by simp only [List.drop_succ_cons, List.drop_zero] at ht; simp [ht, Val.text], hn,
            AtomGives.false, Nat.zero_le _⟩
      split at h
      · rename_i hpk
        subst hpk
        obtain ⟨s, h1, rfl⟩ := map_eq_ok h
        obtain ⟨body, t, rfl, hn, hs⟩ := hD.str _ _ _ h1
        exact ⟨.atom (34 :: (body ++ [34])), t, by simp [Val.text], by simp [Val.text, hn], AtomGives.string body s hs, Nat.zero_le _⟩
      split at h
      · rename_i hpk
        subst hpk
        obtain ⟨i, j, o, h1, h2, rfl⟩ := bind_eq_ok h
        obtain ⟨x', ws, c, t, hd, hw, h3⟩ := knownArray_item h1
        simp only [List.cons.injEq] at hd
        obtain ⟨rfl, rfl⟩ := hd
        rcases h3 with ⟨rfl, rfl, rfl⟩ | ⟨rfl, rfl⟩
        · simp only [JFn.pure, Prod.mk.injEq, Except.ok.injEq] at h2
          obtain ⟨rfl, rfl⟩ := h2
          exact ⟨.arr ws .nil, t, by simp [Val.text, Items.text], by simp [Val.text, Items.text]; omega,
            ⟨hw, [], by simp [Items.Gives], rfl⟩, Nat.zero_le _⟩
        · simp only at h2
          split at h2
          · simp [JFn.fail, jerr] at h2
          · rename_i hd0
            obtain ⟨l, h3, rfl⟩ := map_eq_ok h2
            rw [show 91 :: (ws ++ c :: t) = (91 :: ws) ++ c :: t from rfl, drop_app _ _ (by simp; omega)] at h3
            obtain ⟨v, a, more, t', e1, rfl, hg, hn⟩ := ih.2.1 _ _ _ _ _ h3
            refine ⟨.arr ws (.cons [] v a more), t', ?_, ?_, ⟨hw, l, hg, rfl⟩, ?_⟩
            · rw [e1]; simp [Val.text, Items.text]
            · simp only [Val.text, Items.text, List.length_cons, List.length_append, List.length_nil]; omega
            · simp only [Val.nesting]; omega
      split at h
      · rename_i hpk
        subst hpk
        obtain ⟨i, j, o, h1, h2, rfl⟩ := bind_eq_ok h
        rcases knownObject_ok h1 with ⟨x', ws, t, hd, hw, rfl, rfl⟩ | ⟨x', ws, t, mm, key, hd, hw, rfl, hk, rfl⟩
        · simp only [List.cons.injEq] at hd
          obtain ⟨rfl, rfl⟩ := hd
          simp only [JFn.pure, Prod.mk.injEq, Except.ok.injEq] at h2
          obtain ⟨rfl, rfl⟩ := h2
          exact ⟨.obj ws .nil, t, by simp [Val.text, Members.text], by simp [Val.text, Members.text]; omega,
            ⟨spaces_of_ws hw, [], by simp [Members.Gives], rfl⟩, Nat.zero_le _⟩
        · simp only [List.cons.injEq] at hd
          obtain ⟨rfl, rfl⟩ := hd
          simp only at h2
          split at h2
          · simp [JFn.fail, jerr] at h2
          · rename_i hd0
            obtain ⟨l, h3, rfl⟩ := map_eq_ok h2
            obtain ⟨k, w, u, rfl, hs, hsw, rfl⟩ := objectKey_says hD hk
            rw [show 123 :: (ws ++ 34 :: (k ++ 34 :: (w ++ 58 :: u))) = (123 :: (ws ++ 34 :: (k ++ 34 :: (w ++ [58])))) ++ u by simp,
              drop_app _ _ (by simp only [List.length_cons, List.length_append, List.length_nil]; omega)] at h3
            obtain ⟨m', v, a, more, t', rfl, rfl, hg, hn⟩ := ih.2.2 _ _ _ _ _ h3 [] k w s0 hsw hs
            refine ⟨.obj ws (.cons [] k w m' v a more), t', ?_, ?_, ⟨spaces_of_ws hw, l, hg, rfl⟩, ?_⟩
            · simp [Val.text, Members.text]
            · simp only [Val.text, Members.text, List.length_cons, List.length_append, List.length_nil]; omega
            · simp only [Val.nesting]; omega
      split at h
      · obtain ⟨tok, h1, rfl⟩ := map_eq_ok h
        obtain ⟨h2, hr⟩ := hD.num _ _ _ h1
        obtain ⟨t, ht, hn, hnum⟩ := numberTok_text h2
        exact ⟨.atom tok, t, ht, hn, AtomGives.number tok hnum hr, Nat.zero_le _⟩
      · simp [JFn.fail, jerr] at h
    · intro depth pk d n l h
      rw [items] at h
      obtain ⟨i, j, x, h1, h2, rfl⟩ := bind_eq_ok h
      obtain ⟨v, t, e1, rfl, hg, hn⟩ := ih.1 _ _ _ _ _ h1
      rw [e1, List.drop_left] at h2
      obtain ⟨i2, j2, o, h3, h4, rfl⟩ := bind_eq_ok h2
      rcases arrayStep_ok h3 with ⟨ws, t', rfl, hw, rfl, rfl⟩ | ⟨ws, ws2, c, t', rfl, hw, hw2, _, _, rfl, rfl⟩
      · simp only [JFn.pure, Prod.mk.injEq, Except.ok.injEq] at h4
        obtain ⟨rfl, rfl⟩ := h4
        refine ⟨v, ws, .nil, t', e1, by simp [Items.textMore], ⟨s0, spaces_of_ws hw, x, [], hg, by simp [Items.Gives], rfl⟩, ?_⟩
        simp only [Items.nesting]; omega
      · obtain ⟨l', h5, rfl⟩ := map_eq_ok h4
        rw [show ws ++ 44 :: (ws2 ++ c :: t') = (ws ++ 44 :: ws2) ++ c :: t' by simp, drop_app _ _ (by simp; omega)] at h5
        obtain ⟨v2, a2, more2, t2, e2, rfl, hg2, hn2⟩ := ih.2.1 _ _ _ _ _ h5
        obtain ⟨_, ha2, y, ys, hy, hys, rfl⟩ := hg2
        refine ⟨v, ws, .cons ws2 v2 a2 more2, t2, ?_, ?_,
          ⟨s0, spaces_of_ws hw, x, _, hg, ⟨spaces_of_ws hw2, ha2, y, ys, hy, hys, rfl⟩, rfl⟩, ?_⟩
        · rw [e1, e2]; simp [Items.textMore]
        · simp only [Items.textMore, List.length_cons, List.length_append]; omega
        · simp only [Items.nesting] at hn2 ⊢; omega
    · intro depth key d n l h b k m hb hm hs
      rw [members] at h
      obtain ⟨i0, j0, pk, h0, h1', rfl⟩ := bind_eq_ok h
      obtain ⟨m', d', rfl, hm', _, rfl⟩ := peek_ok h0
      rw [List.drop_left] at h1'
      obtain ⟨i, j, x, h1, h2, rfl⟩ := bind_eq_ok h1'
      obtain ⟨v, t, e1, rfl, hg, hn⟩ := ih.1 _ _ _ _ _ h1
      rw [e1, List.drop_left] at h2
      obtain ⟨i2, j2, o, h3, h4, rfl⟩ := bind_eq_ok h2
      rcases nextKey_ok h3 with ⟨ws, t', rfl, hw, rfl, rfl⟩ | ⟨ws, ws2, t', mm, key2, rfl, hw, hw2, rfl, hk, rfl⟩
      · simp only [JFn.pure, Prod.mk.injEq, Except.ok.injEq] at h4
        obtain ⟨rfl, rfl⟩ := h4
        refine ⟨m', v, ws, .nil, t', by rw [e1]; simp [Members.textMore], by simp [Members.textMore],
          ⟨hb, hm, spaces_of_ws hm', spaces_of_ws hw, key, x, [], hs, hg, by simp [Members.Gives], rfl⟩, ?_⟩
        simp only [Members.nesting]; omega
      · obtain ⟨l', h5, rfl⟩ := map_eq_ok h4
        obtain ⟨k2, w2, u, rfl, hs2, hsw2, rfl⟩ := objectKey_says hD hk
        rw [show ws ++ 44 :: (ws2 ++ 34 :: (k2 ++ 34 :: (w2 ++ 58 :: u))) =
          (ws ++ 44 :: (ws2 ++ 34 :: (k2 ++ 34 :: (w2 ++ [58])))) ++ u by simp,
          drop_app _ _ (by simp only [List.length_cons, List.length_append, List.length_nil]; omega)] at h5
        obtain ⟨m2, v2, a2, more2, t2, rfl, rfl, hg2, hn2⟩ := ih.2.2 _ _ _ _ _ h5 ws2 k2 w2 (spaces_of_ws hw2) hsw2 hs2
        refine ⟨m', v, ws, .cons ws2 k2 w2 m2 v2 a2 more2, t2, ?_, ?_,
          ⟨hb, hm, spaces_of_ws hm', spaces_of_ws hw, key, x, _, hs, hg, hg2, rfl⟩, ?_⟩
        · rw [e1]; simp [Members.textMore]
        · simp only [Members.textMore, List.length_cons, List.length_append]; omega
        · simp only [Members.nesting] at hn2 ⊢; omega

/-- No longer beginning of `v` and what follows is the beginning of a number. -/
def Longest (v t : Bytes) : Prop := ∀ c b y, t = c :: b → ¬ Number (v ++ c :: y)

theorem whole_longest (hD : DecodesTo D R) {F depth n : Nat} {pk : Byte} {d : Bytes} {x : α}
    (h : value D B F depth pk (pk :: d) = (n, .ok x)) (hlt : n < (pk :: d).length) {v t : Bytes} (hd : pk :: d = v ++ t)
    (hn : n = v.length) (hv : v ≠ []) (y : Bytes) : Longest v (t ++ y) := by
  intro c0 b z hab hnum
  obtain ⟨c, u, hcu, hc⟩ := number_head hnum
  cases v with
  | nil => exact absurd rfl hv
  | cons c' v =>
    simp only [List.cons_append, List.cons.injEq] at hd hcu
    obtain ⟨rfl, rfl⟩ := hd
    obtain ⟨rfl, _⟩ := hcu
    cases F with
    | zero => simp [value, JFn.fail, jerr] at h
    | succ F =>
      rw [value_num F depth hc] at h
      obtain ⟨tok, h1, _⟩ := map_eq_ok h
      obtain ⟨h2, _⟩ := hD.num _ _ _ h1
      obtain ⟨t', e1, e2, _⟩ := numberTok_text h2
      have htok : tok = pk :: v := by
        have h3 := congrArg (List.take n) e1
        rw [show pk :: (v ++ t) = (pk :: v) ++ t from rfl] at h3
        rw [show n = tok.length from e2, List.take_left] at h3
        rw [← e2, hn, List.take_left] at h3
        exact h3.symm
      subst htok
      exact numberTok_longest h2 hlt (t := t) (x := y) rfl hab hnum

theorem Val.Gives.ne_nil {v : Val} {x : α} (h : v.Gives R B x) : v.text ≠ [] := by
  obtain ⟨pk, tl, e, _⟩ := h.first
  rw [e]; simp

theorem knownWhole_says (hD : DecodesTo D R) {pk : Byte} {d : Bytes} {n : Nat} {x : α} (h : knownWhole D B pk (pk :: d) = (n, .ok x)) :
    ∃ (v : Val) (t : Bytes), pk :: d = v.text ++ t ∧ n = v.text.length ∧ v.Gives R B x ∧ v.nesting ≤ 200 ∧
      (n < (pk :: d).length → ∀ y, Longest v.text (t ++ y)) := by
  obtain ⟨v, t, h1, h2, h3, h4⟩ := (whole_says hD _).1 _ _ _ _ _ h
  exact ⟨v, t, h1, h2, h3, h4, fun hlt y => whole_longest hD h hlt h1 h2 h3.ne_nil y⟩

theorem nextWhole_says (hD : DecodesTo D R) {d : Bytes} {n : Nat} {x : α} (h : nextWhole D B d = (n, .ok x)) :
    ∃ (ws : Bytes) (v : Val) (t : Bytes), d = ws ++ (v.text ++ t) ∧ Spaces ws ∧ n = ws.length + v.text.length ∧ v.Gives R B x ∧
      v.nesting ≤ 200 ∧ (n < d.length → ∀ y, Longest v.text (t ++ y)) := by
  obtain ⟨i, j, pk, h1, h2, rfl⟩ := bind_eq_ok h
  obtain ⟨ws, t, rfl, hw, _, rfl⟩ := peek_ok h1
  rw [List.drop_left] at h2
  obtain ⟨v, t', e1, e2, h3, h4⟩ := (whole_says hD _).1 _ _ _ _ _ h2
  refine ⟨ws, v, t', by rw [e1], spaces_of_ws hw, by rw [e2], h3, h4, fun hlt y => ?_⟩
  refine whole_longest hD h2 ?_ e1 e2 h3.ne_nil y
  rw [List.length_append] at hlt; omega

theorem nextNum_says {num : JFn Bytes} {P : Bytes → Prop} (hN : ∀ d n tok, num d = (n, .ok tok) → numberTok d = (n, .ok tok) ∧ P tok)
    {d : Bytes} {n : Nat} {tok : Bytes} (h : nextNum num d = (n, .ok tok)) :
    ∃ ws t, d = ws ++ (tok ++ t) ∧ Spaces ws ∧ n = ws.length + tok.length ∧ Number tok ∧ P tok ∧
      (n < d.length → ∀ y, Longest tok (t ++ y)) := by
  obtain ⟨i, j, pk, h1, h2, rfl⟩ := bind_eq_ok h
  obtain ⟨ws, t, rfl, hw, _, rfl⟩ := peek_ok h1
  rw [List.drop_left] at h2
  simp only [knownNum] at h2
  split at h2
  · obtain ⟨h3, hp⟩ := hN _ _ _ h2
    obtain ⟨t', e1, e2, hn⟩ := numberTok_text h3
    refine ⟨ws, t', by rw [e1], spaces_of_ws hw, by rw [e2], hn, hp, fun hlt y c b z hab => ?_⟩
    rw [List.length_append] at hlt
    exact numberTok_longest h3 (by omega) e1 hab
  · simp at h2

theorem knownNum_says {num : JFn Bytes} {P : Bytes → Prop} (hN : ∀ d n tok, num d = (n, .ok tok) → numberTok d = (n, .ok tok) ∧ P tok)
    {pk : Byte} {d : Bytes} {n : Nat} {tok : Bytes} (h : knownNum num pk d = (n, .ok tok)) :
    ∃ t, d = tok ++ t ∧ n = tok.length ∧ Number tok ∧ P tok ∧ (n < d.length → ∀ y, Longest tok (t ++ y)) := by
  simp only [knownNum] at h
  split at h
  · obtain ⟨h3, hp⟩ := hN _ _ _ h
    obtain ⟨t', e1, e2, hn⟩ := numberTok_text h3
    exact ⟨t', e1, e2, hn, hp, fun hlt y c b z hab => numberTok_longest h3 hlt e1 hab⟩
  · simp at h

/-! ### The calls -/

/-- A value is read whole, unless the stream or the buffer ends with it. -/
def Complete (s : RJ) (v t : Bytes) : Prop := Longest v t ∨ t = [] ∨ v.length = s.b.buf.length

/-- From an accepted prefix to the stream. -/
theorem accepted_stream {f : JFn α} {s : RJ} {ws r : Bytes} {k n : Nat} {x : α} (hr : s.rest = ws ++ r)
    (hw : ∀ c ∈ ws, isAsciiWs c = true) (hn : n < k ∧ ws = [] ∨ r = norm none s.rest)
    (ha : Accepted f true s.b.buf.length r k n x) {ws' v t : Bytes} (hd : r.take k = ws' ++ (v ++ t)) (hw' : Spaces ws')
    (hlen : n = ws'.length + v.length) (hlong : n < (r.take k).length → ∀ y, Longest v (t ++ y)) :
    ∃ ws t, s.rest = ws ++ (v ++ t) ∧ Blank ws ∧ ws.length + v.length = (s.rest.length - r.length) + n ∧ Complete s v t := by
  have hk : (r.take k).length = k := by rw [List.length_take]; have := ha.le; omega
  have hrr : r = ws' ++ (v ++ (t ++ r.drop k)) := by
    conv => lhs; rw [← List.take_append_drop k r, hd]
    simp
  refine ⟨ws ++ ws', t ++ r.drop k, by rw [hr, List.append_assoc, ← hrr], ?_, ?_, ?_⟩
  · intro c hc
    rcases List.mem_append.mp hc with hc | hc
    · exact blank_of_ascii hw c hc
    · exact .inl (hw' c hc)
  · rw [hr, List.length_append, List.length_append]; omega
  · by_cases hlt : n < k
    · exact .inl (hlong (by omega) _)
    · have hnk : n = k := by
        have := congrArg List.length hd
        rw [hk] at this
        simp only [List.length_append] at this
        omega
      have ht : t = [] := by
        have := congrArg List.length hd
        rw [hk] at this
        simp only [List.length_append] at this
        exact List.length_eq_zero_iff.mp (by omega)
      rcases ha.margin rfl with h1 | h1 | h1
      · omega
      · right; left
        rw [ht, h1, List.drop_length]; rfl
      · right; right
        rcases hn with ⟨h2, _⟩ | h2
        · omega
        · have hws : ws' = [] := by
            cases ws' with
            | nil => rfl
            | cons c l =>
              obtain ⟨_, _, _, h3⟩ := norm_none_split s.rest
              have h4 := h3 c (by rw [← h2, hrr]; rfl)
              have h5 := (ws_iff _).mpr hw' c (by simp)
              rw [isWs_of_not_ascii h4] at h5
              simp at h5
          rw [hws] at hlen
          simp only [List.length_nil, Nat.zero_add] at hlen
          omega

theorem next_moved {s s' : RJ} {ws r : Bytes} {n m : Nat} (hr : s.rest = ws ++ r) (hm : s.Moved s' (ws.length + n))
    (h : m = (s.rest.length - r.length) + n) : s.Moved s' m := by
  have := congrArg List.length hr
  rw [List.length_append] at this
  rw [h, show s.rest.length - r.length = ws.length by omega]; exact hm

/-- A failure on an atom does not move. -/
theorem value_still (hs : Still D.str) (hn : Still D.num) {F depth n : Nat} {pk : Byte} {d : Bytes} {e : JErr}
    (h1 : pk ≠ 91) (h2 : pk ≠ 123) (h : value D B F depth pk d = (n, .error e)) : n = 0 := by
  have hmap : ∀ {β : Type} {f : JFn β} {g : β → α}, Still f → f.map g d = (n, .error e) → n = 0 := by
    intro β f g hf hm
    simp only [JFn.map, JFn.bind, JFn.pure] at hm
    rcases hfd : f d with ⟨i, y⟩
    rw [hfd] at hm
    cases y with
    | error e' =>
      simp only [Prod.mk.injEq] at hm
      rw [← hm.1]; exact hf _ _ _ hfd
    | ok v => simp at hm
  cases F with
  | zero => simp only [value, JFn.fail, jerr, Prod.mk.injEq] at h; exact h.1.symm
  | succ F =>
    rw [value] at h
    split at h
    · exact hmap (consumeIdent_still _ _) h
    split at h
    · exact hmap (knownBool_still _) h
    split at h
    · exact hmap hs h
    split at h
    · exact hmap hn h
    · simp only [JFn.fail, jerr, Prod.mk.injEq] at h; exact h.1.symm

theorem numberAny_still : Still numberAny := by
  intro d n e h
  simp only [numberAny] at h
  split at h
  · simp only [jerr, Prod.mk.injEq] at h; exact h.1.symm
  · exact numberTok_still _ _ _ h

theorem numberInt_still : Still numberInt := by
  intro d n e h
  simp only [numberInt] at h
  split at h
  · simp only [jerr, Prod.mk.injEq] at h; exact h.1.symm
  split at h
  · simp only [jerr, Prod.mk.injEq] at h; exact h.1.symm
  split at h
  · simp only [jerr, Prod.mk.injEq] at h; exact h.1.symm
  split at h
  · split at h
    · simp only [Prod.mk.injEq] at h; exact h.1.symm
    · simp at h
  · simp at h

theorem knownNum_still {num : JFn Bytes} (h : Still num) (pk : Byte) : Still (knownNum num pk) := by
  intro d n e he
  simp only [knownNum] at he
  split at he
  · exact h _ _ _ he
  · simp only [Prod.mk.injEq] at he; exact he.1.symm

theorem nextNum_stillWs {num : JFn Bytes} (h : Still num) : StillWs (nextNum num) := by
  intro c t n e hc he
  have hp : peek (c :: t) = (0, .ok c) := by simpa using peek_tok Ws.nil hc t
  simp only [nextNum, JFn.bind, hp, List.drop_zero] at he
  rcases hk : knownNum num c (c :: t) with ⟨i, y⟩
  rw [hk] at he
  cases y with
  | error e' =>
    have := knownNum_still h c _ _ _ hk
    simp only [Prod.mk.injEq] at he
    omega
  | ok v => simp at he

theorem nextWhole_value (hs : DecodesTo D R) (hD : D.Sound) (hst : Still D.str) (hnt : Still D.num) {s s' : RJ} {fuel : Nat} {x : α}
    (h : s.Sync) (hl : 0 < s.b.buf.length) (hf : s.b.reader.size + 2 ≤ fuel)
    (hpos : 0 < s.jidx ∨ s.b.nBytes = 0 ∨ ∀ c, s.rest.head? = some c → c ≠ 91 ∧ c ≠ 123)
    (hok : s.loopUntilSuccess fuel (nextWhole D B) none true = (s', .ok x)) :
    ∃ (ws : Bytes) (v : Val) (t : Bytes), s.rest = ws ++ (v.text ++ t) ∧ Blank ws ∧ v.Gives R B x ∧ v.nesting ≤ 200 ∧
      s.Moved s' (ws.length + v.text.length) ∧ Complete s v.text t := by
  have hstill : s.jidx = 0 → ∀ c t n e, s.jdata = c :: t → isWs c = false → nextWhole D B (c :: t) = (n, .error e) → n = 0 := by
    intro h0 c t n e hj hc he
    have hp : peek (c :: t) = (0, .ok c) := by simpa using peek_tok Ws.nil hc t
    simp only [nextWhole, JFn.bind, hp, List.drop_zero] at he
    rcases hk : value D B (2 * (c :: t).length + 1) recursionLimit c (c :: t) with ⟨i, y⟩
    rw [hk] at he
    cases y with
    | ok v => simp at he
    | error e' =>
      simp only [Prod.mk.injEq] at he
      rcases hpos with h1 | h1 | h1
      · omega
      · have : s.jdata.length ≤ s.b.nBytes := by
          simp only [RJ.jdata, List.length_take, List.length_drop]
          have := h.len
          omega
        rw [hj, h1] at this; simp at this
      · have h2 := h1 c (by rw [rest_eq h, hj]; rfl)
        have := value_still hst hnt h2.1 h2.2 hk
        omega
  obtain ⟨ws, r, k, n, h1, h2, h3, h4, h5⟩ := RJ.plain_value_of (nextWhole_jsound hD) s hstill fuel h hl hf hok
  obtain ⟨ws', v, t, e1, e2, e3, e4, e5, e6⟩ := nextWhole_says hs h4.ok
  obtain ⟨ws2, t2, f1, f2, f3, f4⟩ := accepted_stream h1 h2 (h3.imp (fun h => ⟨h.1 rfl, h.2⟩) id) h4 e1 e2 e3 e6
  exact ⟨ws2, v, t2, f1, f2, e4, e5, next_moved h1 h5 f3, f4⟩

theorem knownWhole_value (hs : DecodesTo D R) (hD : D.Sound) (hst : Still D.str) (hnt : Still D.num) {s s' : RJ} {fuel : Nat} {x : α}
    {pk : Byte} (h : s.Sync) (hl : 0 < s.b.buf.length) (hf : s.b.reader.size + 2 ≤ fuel) (hpk : s.rest.head? = some pk)
    (hws : isAsciiWs pk = false) (hpos : 0 < s.jidx ∨ s.b.nBytes = 0 ∨ pk ≠ 91 ∧ pk ≠ 123)
    (hok : s.loopUntilSuccess fuel (knownWhole D B pk) none true = (s', .ok x)) :
    ∃ (v : Val) (t : Bytes), s.rest = v.text ++ t ∧ v.Gives R B x ∧ v.nesting ≤ 200 ∧
      s.Moved s' v.text.length ∧ Complete s v.text t := by
  have hstill : s.jidx = 0 → ∀ c t n e, s.jdata = c :: t → isWs c = false → knownWhole D B pk (c :: t) = (n, .error e) → n = 0 := by
    intro h0 c t n e hj hc he
    rcases hpos with h1 | h1 | h1
    · omega
    · have : s.jdata.length ≤ s.b.nBytes := by
        simp only [RJ.jdata, List.length_take, List.length_drop]
        have := h.len
        omega
      rw [hj, h1] at this; simp at this
    · exact value_still hst hnt h1.1 h1.2 he
  obtain ⟨ws, r, k, n, h1, h2, h3, h4, h5⟩ := RJ.plain_value_of (knownWhole_jsound hD pk) s hstill fuel h hl hf hok
  have hw0 : ws = [] := by
    cases ws with
    | nil => rfl
    | cons c l =>
      rw [h1] at hpk
      simp only [List.cons_append, List.head?_cons, Option.some.injEq] at hpk
      subst hpk
      rw [h2 c (by simp)] at hws
      simp at hws
  subst hw0
  have hk0 : k ≠ 0 := by
    rintro rfl
    exact ((knownWhole_jsound hD pk).bound _ _ _ h4.ok).2 (by simp)
  obtain ⟨d, hd⟩ : ∃ d, r.take k = pk :: d := by
    rw [h1, List.nil_append] at hpk
    cases r with
    | nil => simp at hpk
    | cons c l =>
      simp only [List.head?_cons, Option.some.injEq] at hpk
      obtain ⟨j, rfl⟩ : ∃ j, k = j + 1 := ⟨k - 1, by omega⟩
      exact ⟨l.take j, by rw [hpk, List.take_succ_cons]⟩
  have hok4 := h4.ok
  rw [hd] at hok4
  obtain ⟨v, t, e1, e3, e4, e5, e6⟩ := knownWhole_says hs hok4
  obtain ⟨ws2, t2, f1, f2, f3, f4⟩ := accepted_stream (ws' := []) h1 h2 (h3.imp (fun h => ⟨h.1 rfl, h.2⟩) id) h4 (by rw [hd, e1]; rfl)
    (by intro c hc; simp at hc) (by simpa using e3) (by rw [hd]; exact e6)
  have hr0 : s.rest.length - r.length = 0 := by rw [h1]; simp
  have : ws2 = [] := List.length_eq_zero_iff.mp (by omega)
  subst this
  exact ⟨v, t2, f1, e4, e5, by have := next_moved h1 h5 f3; simpa using this, f4⟩

variable {num : JFn Bytes} {P : Bytes → Prop}

theorem nextNum_value (hN : ∀ d n tok, num d = (n, .ok tok) → numberTok d = (n, .ok tok) ∧ P tok) (hj : JSound num none)
    (hst : Still num) {s s' : RJ} {fuel : Nat} {tok : Bytes} (h : s.Sync) (hl : 0 < s.b.buf.length) (hf : s.b.reader.size + 2 ≤ fuel)
    (hok : s.loopUntilSuccess fuel (nextNum num) none true = (s', .ok tok)) :
    ∃ ws t, s.rest = ws ++ (tok ++ t) ∧ Blank ws ∧ Number tok ∧ P tok ∧ s.Moved s' (ws.length + tok.length) ∧ Complete s tok t := by
  obtain ⟨ws, r, k, n, h1, h2, h3, h4, h5⟩ := RJ.plain_value (nextNum_jsound hj) (nextNum_stillWs hst) s fuel h hl hf hok
  obtain ⟨ws', t, e1, e2, e3, e4, e5, e6⟩ := nextNum_says hN h4.ok
  obtain ⟨ws2, t2, f1, f2, f3, f4⟩ := accepted_stream h1 h2 (h3.imp (fun h => ⟨h.1 rfl, h.2⟩) id) h4 e1 e2 e3 e6
  exact ⟨ws2, t2, f1, f2, e4, e5, next_moved h1 h5 f3, f4⟩

theorem knownNum_value (hN : ∀ d n tok, num d = (n, .ok tok) → numberTok d = (n, .ok tok) ∧ P tok) (hj : JSound num none)
    (hst : Still num) {s s' : RJ} {fuel : Nat} {pk : Byte} {tok : Bytes} (h : s.Sync) (hl : 0 < s.b.buf.length)
    (hf : s.b.reader.size + 2 ≤ fuel) (hok : s.loopUntilSuccess fuel (knownNum num pk) none true = (s', .ok tok)) :
    ∃ ws t, s.rest = ws ++ (tok ++ t) ∧ Blank ws ∧ Number tok ∧ P tok ∧ s.Moved s' (ws.length + tok.length) ∧ Complete s tok t := by
  obtain ⟨ws, r, k, n, h1, h2, h3, h4, h5⟩ := RJ.plain_value (knownNum_jsound hj pk) (knownNum_still hst pk).ws s fuel h hl hf hok
  obtain ⟨t, e1, e3, e4, e5, e6⟩ := knownNum_says hN h4.ok
  obtain ⟨ws2, t2, f1, f2, f3, f4⟩ := accepted_stream (ws' := []) h1 h2 (h3.imp (fun h => ⟨h.1 rfl, h.2⟩) id) h4 (by rw [e1]; rfl)
    (by intro c hc; simp at hc) (by simpa using e3) e6
  exact ⟨ws2, t2, f1, f2, e4, e5, next_moved h1 h5 f3, f4⟩

end Verif.Scan
