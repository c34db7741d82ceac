import Verif.Bench.Main
import Verif.Bench.Agree
import Verif.Scan.AgainProps

/-!
# Lemmas on lines and white space, for `Bench/MainProps`
-/

namespace Verif.Bench

open Verif.RJiter Verif.Scan Verif.Ddb

/-! ## `trim` -/

/-- A step takes at least one byte. -/
def Shrinks (step : Bytes → Option Bytes) : Prop := ∀ s t, step s = some t → t.length < s.length

theorem white_shrinks : Shrinks white := by
  intro s t h
  unfold white at h
  split at h
  · cases h
  · split at h
    · cases h; simp
    · split at h
      all_goals
        first
        | cases h
        | (split at h <;> cases h)
      all_goals simp only [List.length_cons]; omega

theorem whiteBack_shrinks : Shrinks whiteBack := by
  intro s t h
  unfold whiteBack at h
  split at h
  · cases h
  · split at h
    · cases h; simp
    · split at h
      all_goals
        first
        | cases h
        | (split at h <;> cases h)
      all_goals simp only [List.length_cons]; omega

theorem strip_fuel {step : Bytes → Option Bytes} (h : Shrinks step) : ∀ (n m : Nat) (s : Bytes), s.length ≤ n → s.length ≤ m →
    strip step n s = strip step m s
  | 0, 0, _, _, _ => rfl
  | 0, m + 1, s, hn, _ => by
    rcases e : step s with _ | t
    · simp only [strip, e]
    · have := h s t e; omega
  | n + 1, 0, s, _, hm => by
    rcases e : step s with _ | t
    · simp only [strip, e]
    · have := h s t e; omega
  | n + 1, m + 1, s, hn, hm => by
    rw [strip, strip]
    rcases e : step s with _ | t
    · rfl
    · have := h s t e
      exact strip_fuel h n m t (by omega) (by omega)

/-- As often as possible. -/
def peel (step : Bytes → Option Bytes) (s : Bytes) : Bytes := strip step s.length s

theorem peel_none {step : Bytes → Option Bytes} {s : Bytes} (h : step s = none) : peel step s = s := by
  unfold peel
  cases s.length with
  | zero => rfl
  | succ n => rw [strip, h]

theorem peel_some {step : Bytes → Option Bytes} (hs : Shrinks step) {s t : Bytes} (h : step s = some t) : peel step s = peel step t := by
  unfold peel
  have := hs s t h
  rcases e : s.length with _ | n
  · omega
  · rw [strip, h]
    exact strip_fuel hs _ _ _ (by omega) (Nat.le_refl _)

theorem trim_eq (s : Bytes) : trim s = (peel whiteBack (peel white s).reverse).reverse := by
  unfold trim peel
  rw [List.length_reverse]

theorem white_cons {c : Byte} (h : asciiWhite c = true) (t : Bytes) : white (c :: t) = some t := by
  unfold white
  simp only
  rw [if_pos h]

theorem whiteBack_cons {c : Byte} (h : asciiWhite c = true) (t : Bytes) : whiteBack (c :: t) = some t := by
  unfold whiteBack
  simp only
  rw [if_pos h]

theorem asciiWhite_small {c : Byte} (h : asciiWhite c = true) : c.toNat < 33 := by
  unfold asciiWhite at h
  simp only [Bool.or_eq_true, Bool.and_eq_true, decide_eq_true_eq, beq_iff_eq] at h
  rcases h with ⟨_, h⟩ | rfl
  · have : c.toNat ≤ 13 := h
    omega
  · decide

theorem white_append {c : Byte} (hc : asciiWhite c = true) : ∀ (s : Bytes), s ≠ [] → white (s ++ [c]) = (white s).map (· ++ [c])
  | [], h => absurd rfl h
  | x :: t, _ => by
    have hs := asciiWhite_small hc
    have n1 : c ≠ 0x85 := by rintro rfl; simp at hs
    have n2 : c ≠ 0xA0 := by rintro rfl; simp at hs
    have n3 : c ≠ 0x9A := by rintro rfl; simp at hs
    have n4 : c ≠ 0x80 := by rintro rfl; simp at hs
    have n5 : c ≠ 0x81 := by rintro rfl; simp at hs
    have n6 : c ≠ 0x9F := by rintro rfl; simp at hs
    have n7 : ¬ ((0x80 ≤ c ∧ c ≤ 0x8A) ∨ c = 0xA8 ∨ c = 0xA9 ∨ c = 0xAF) := by
      rintro (⟨h, _⟩ | rfl | rfl | rfl)
      · have : (0x80 : Byte).toNat ≤ c.toNat := h
        simp at this
        omega
      all_goals simp at hs
    unfold white
    rw [List.cons_append]
    simp only
    split
    · rfl
    · rcases t with _ | ⟨y, _ | ⟨z, t⟩⟩
      · simp only [List.nil_append]
        split <;> simp_all
      · simp only [List.cons_append, List.nil_append]
        split <;> simp_all <;> split <;> simp_all
      · simp only [List.cons_append]
        split <;> simp_all <;> split <;> simp_all

theorem peel_white_append {c : Byte} (hc : asciiWhite c = true) : ∀ (n : Nat) (s : Bytes), s.length ≤ n →
    peel white (s ++ [c]) = if peel white s = [] then [] else peel white s ++ [c]
  | n, [], _ => by
    rw [List.nil_append, peel_some white_shrinks (white_cons hc []), if_pos (show peel white [] = [] from rfl)]
    rfl
  | 0, _ :: _, h => by simp at h
  | n + 1, x :: t, h => by
    have ha := white_append hc (x :: t) nofun
    rcases e : white (x :: t) with _ | u
    · rw [e] at ha
      rw [peel_none ha, peel_none e, if_neg nofun]
    · rw [e] at ha
      have := white_shrinks _ _ e
      rw [peel_some white_shrinks ha, peel_some white_shrinks e]
      exact peel_white_append hc n u (by simp at h this; omega)

/-- White space at the end does not matter. -/
theorem trim_snoc {c : Byte} (hc : asciiWhite c = true) (s : Bytes) : trim (s ++ [c]) = trim s := by
  rw [trim_eq, trim_eq, peel_white_append hc _ s (Nat.le_refl _)]
  split
  · rename_i h
    rw [h]
  · rw [List.reverse_append, List.reverse_singleton, List.singleton_append, peel_some whiteBack_shrinks (whiteBack_cons hc _)]

theorem space_white {c : Byte} (h : Space c) : asciiWhite c = true := by
  rcases h with rfl | rfl | rfl | rfl <;> decide

theorem trim_front : ∀ (w s : Bytes), Spaces w → trim (w ++ s) = trim s
  | [], _, _ => rfl
  | c :: w, s, h => by
    rw [← trim_front w s fun x hx => h x (by simp [hx]), trim_eq, trim_eq, List.cons_append,
      peel_some white_shrinks (white_cons (space_white (h c (by simp))) _)]

theorem trim_back (s : Bytes) : ∀ (w : Bytes), Spaces w → trim (s ++ w) = trim s := by
  intro w
  induction w generalizing s with
  | nil => intro _; rw [List.append_nil]
  | cons c w ih =>
    intro h
    rw [show s ++ c :: w = (s ++ [c]) ++ w by simp, ih _ fun x hx => h x (by simp [hx]), trim_snoc (space_white (h c (by simp)))]

theorem trim_spaces {w : Bytes} (h : Spaces w) : trim w = [] := by
  have := trim_front w [] h
  rwa [List.append_nil] at this

/-- A byte of ASCII that is no white space. -/
def Ink (c : Byte) : Prop := 33 ≤ c.toNat ∧ c.toNat < 128

theorem white_ink {c : Byte} (h : Ink c) (t : Bytes) : white (c :: t) = none := by
  have hw : ¬ asciiWhite c = true := fun e => by have := asciiWhite_small e; have := h.1; omega
  have n1 : c ≠ 0xC2 := by rintro rfl; simp [Ink] at h
  have n2 : c ≠ 0xE1 := by rintro rfl; simp [Ink] at h
  have n3 : c ≠ 0xE2 := by rintro rfl; simp [Ink] at h
  have n4 : c ≠ 0xE3 := by rintro rfl; simp [Ink] at h
  unfold white
  simp only
  rw [if_neg hw]
  split <;> simp_all

theorem whiteBack_ink {c : Byte} (h : Ink c) (t : Bytes) : whiteBack (c :: t) = none := by
  have hw : ¬ asciiWhite c = true := fun e => by have := asciiWhite_small e; have := h.1; omega
  have n1 : c ≠ 0x85 := by rintro rfl; simp [Ink] at h
  have n2 : c ≠ 0xA0 := by rintro rfl; simp [Ink] at h
  have n3 : c ≠ 0x80 := by rintro rfl; simp [Ink] at h
  have n4 : c ≠ 0x9F := by rintro rfl; simp [Ink] at h
  have n7 : ¬ ((0x80 ≤ c ∧ c ≤ 0x8A) ∨ c = 0xA8 ∨ c = 0xA9 ∨ c = 0xAF) := by
    rintro (⟨h', _⟩ | rfl | rfl | rfl)
    · have : (0x80 : Byte).toNat ≤ c.toNat := h'
      have h2 := h.2
      simp at this
      omega
    all_goals simp [Ink] at h
  unfold whiteBack
  simp only
  rw [if_neg hw]
  split <;> simp_all

/-- The text begins and ends with ink. -/
def Framed (s : Bytes) : Prop := (∃ c t, s = c :: t ∧ Ink c) ∧ ∃ t c, s = t ++ [c] ∧ Ink c

theorem trim_framed {s : Bytes} (h : Framed s) : trim s = s := by
  obtain ⟨⟨c, t, e, hc⟩, t', c', e', hc'⟩ := h
  have h1 : peel white s = s := by rw [e]; exact peel_none (white_ink hc t)
  rw [trim_eq, h1]
  have h2 : peel whiteBack s.reverse = s.reverse := by
    rw [e', List.reverse_append, List.reverse_singleton, List.singleton_append]
    exact peel_none (whiteBack_ink hc' _)
  rw [h2, List.reverse_reverse]

theorem Framed.ne {s : Bytes} (h : Framed s) : s ≠ [] := by
  obtain ⟨⟨c, t, e, _⟩, _⟩ := h
  rw [e]; nofun

/-- A document between spaces. -/
theorem trim_text {w s w' : Bytes} (hw : Spaces w) (h : Framed s) (hw' : Spaces w') : trim (w ++ (s ++ w')) = s := by
  rw [trim_front _ _ hw, trim_back _ _ hw', trim_framed h]

/-! ## The text of a document -/

variable {ν : Type} {N : Numbers ν}

theorem all_framed {s : Bytes} (h : s ≠ []) (ha : ∀ c ∈ s, Ink c) : Framed s := by
  constructor
  · cases s with
    | nil => exact absurd rfl h
    | cons c t => exact ⟨c, t, rfl, ha c (by simp)⟩
  · refine ⟨s.dropLast, s.getLast h, (List.dropLast_concat_getLast h).symm, ha _ (List.getLast_mem h)⟩

theorem number_ink {tok : Bytes} (h : Number tok) : ∀ c ∈ tok, Ink c := by
  intro c hc
  rcases number_bytes h c hc with h | rfl | rfl | rfl | rfl | rfl
  · obtain ⟨h1, h2⟩ := h
    have h1 : (48 : Byte).toNat ≤ c.toNat := h1
    have h2 : c.toNat ≤ (57 : Byte).toNat := h2
    simp at h1 h2
    exact ⟨by omega, by omega⟩
  all_goals exact ⟨by decide, by decide⟩

theorem between_framed {a b : Byte} (t : Bytes) (ha : Ink a) (hb : Ink b) : Framed (a :: (t ++ [b])) :=
  ⟨⟨a, _, rfl, ha⟩, a :: t, b, rfl, hb⟩

theorem stands_framed : ∀ {v : Val} {x : Value ν}, Stands N v x → Framed v.text
  | .atom tok, x, h => by
    show Framed tok
    cases (show AtomGives (reading N) (build N) tok x from h) with
    | null => exact all_framed nofun (by simp only [Ink]; decide)
    | true => exact all_framed nofun (by simp only [Ink]; decide)
    | false => exact all_framed nofun (by simp only [Ink]; decide)
    | number _ hn _ =>
      refine all_framed ?_ (number_ink hn)
      obtain ⟨c, t, e, _⟩ := number_first hn
      rw [e]; nofun
    | string body s hs => exact between_framed body ⟨by decide, by decide⟩ ⟨by decide, by decide⟩
  | .arr w is, _, _ => by
    have : (Val.arr w is).text = 91 :: ((w ++ is.text) ++ [93]) := by simp [Val.text]
    rw [this]
    exact between_framed _ ⟨by decide, by decide⟩ ⟨by decide, by decide⟩
  | .obj w ms, _, _ => by
    have : (Val.obj w ms).text = 123 :: ((w ++ ms.text) ++ [125]) := by simp [Val.text]
    rw [this]
    exact between_framed _ ⟨by decide, by decide⟩ ⟨by decide, by decide⟩

theorem utf8_ascii : ∀ {s : Bytes}, (∀ c ∈ s, c.toNat < 128) → Jiter.utf8Valid s = true
  | [], _ => rfl
  | c :: s, h => by
    unfold Jiter.utf8Valid
    rw [if_pos (show c < 0x80 from h c (by simp))]
    exact utf8_ascii fun x hx => h x (by simp [hx])

theorem utf8_spaces {w : Bytes} (h : Spaces w) : Jiter.utf8Valid w = true := utf8_ascii fun c hc => by
  rcases h c hc with rfl | rfl | rfl | rfl <;> decide

theorem utf8_append {a b : Bytes} (h1 : Jiter.utf8Valid a = true) (h2 : Jiter.utf8Valid b = true) : Jiter.utf8Valid (a ++ b) = true :=
  utf8Valid_append h1 h2

theorem utf8_cons {c : Byte} {b : Bytes} (hc : c.toNat < 128) (h : Jiter.utf8Valid b = true) : Jiter.utf8Valid (c :: b) = true :=
  utf8_append (a := [c]) (utf8_ascii fun x hx => by simp at hx; rw [hx]; exact hc) h

theorem hex_ascii {c : Byte} {v : Nat} (h : HexDigit c v) : c.toNat < 128 := by
  rcases h with h | h | h <;> omega

theorem utf8_hex {a b c d : Byte} {v : Nat} {r : Bytes} (h : Hex4 a b c d v) (hr : Jiter.utf8Valid r = true) :
    Jiter.utf8Valid (92 :: 117 :: a :: b :: c :: d :: r) = true := by
  obtain ⟨_, _, _, _, h1, h2, h3, h4, _⟩ := h
  exact utf8_cons (by decide) (utf8_cons (by decide) (utf8_cons (hex_ascii h1) (utf8_cons (hex_ascii h2) (utf8_cons (hex_ascii h3) (utf8_cons (hex_ascii h4) hr)))))

theorem utf8_body {pairs : Bool} {body : Bytes} {s : List Char} (h : StrBody pairs body s) : Jiter.utf8Valid body = true := by
  induction h with
  | nil => rfl
  | char ch r s hp _ ih => rw [utf8Valid_enc]; exact ih
  | esc e x r s he _ ih => exact utf8_cons (by decide) (utf8_cons (escape_mem he).2.2.2.2.2 ih)
  | uni a b c d ch r s h4 _ ih => exact utf8_hex h4 ih
  | pair a b c d a' b' c' d' hi lo ch r s _ h1 _ _ h2 _ _ _ _ ih => exact utf8_hex h1 (utf8_hex h2 ih)

theorem utf8_quoted {body t : Bytes} {s : Bytes} (h : (reading N).str body s) (ht : Jiter.utf8Valid t = true) :
    Jiter.utf8Valid (34 :: (body ++ 34 :: t)) = true := by
  obtain ⟨_, h, _⟩ := h
  exact utf8_cons (by decide) (utf8_append (utf8_body h) (utf8_cons (by decide) ht))

mutual
theorem stands_utf8 : ∀ {v : Val} {x : Value ν}, Stands N v x → Jiter.utf8Valid v.text = true
  | .atom tok, x, h => by
    show Jiter.utf8Valid tok = true
    cases (show AtomGives (reading N) (build N) tok x from h) with
    | null => decide
    | true => decide
    | false => decide
    | number _ hn _ => exact utf8_ascii fun c hc => (number_ink hn c hc).2
    | string body s hs => exact utf8_quoted (t := []) hs rfl
  | .arr w is, _, h => by
    obtain ⟨hw, _, hl, _⟩ := h
    exact utf8_cons (by decide) (utf8_append (utf8_spaces hw) (utf8_append (items_utf8 hl).1 (by decide)))
  | .obj w ms, _, h => by
    obtain ⟨hw, _, hl, _⟩ := h
    exact utf8_cons (by decide) (utf8_append (utf8_spaces hw) (utf8_append (members_utf8 hl).1 (by decide)))
theorem items_utf8 : ∀ {is : Items} {l : List (Value ν)}, is.Gives (reading N) (build N) l →
    Jiter.utf8Valid is.text = true ∧ Jiter.utf8Valid is.textMore = true
  | .nil, _, _ => ⟨rfl, rfl⟩
  | .cons _ _ _ _, _, h => by
    obtain ⟨h1, h2, _, _, h3, h4, _⟩ := h
    have := utf8_append (utf8_spaces h1) (utf8_append (stands_utf8 h3) (utf8_append (utf8_spaces h2) (items_utf8 h4).2))
    exact ⟨this, utf8_cons (by decide) this⟩
theorem members_utf8 : ∀ {ms : Members} {l : List (Bytes × Value ν)}, ms.Gives (reading N) (build N) l →
    Jiter.utf8Valid ms.text = true ∧ Jiter.utf8Valid ms.textMore = true
  | .nil, _, _ => ⟨rfl, rfl⟩
  | .cons _ _ _ _ _ _ _, _, h => by
    obtain ⟨h1, h2, h3, h4, _, _, _, hk, hv, hm, _⟩ := h
    have := utf8_append (utf8_spaces h1) (utf8_quoted hk (utf8_append (utf8_spaces h2) (utf8_cons (c := 58) (by decide)
      (utf8_append (utf8_spaces h3) (utf8_append (stands_utf8 hv) (utf8_append (utf8_spaces h4) (members_utf8 hm).2))))))
    exact ⟨this, utf8_cons (by decide) this⟩
end

/-- UTF-8 may be cut at ASCII. -/
theorem utf8_split {c : Byte} (hc : c.toNat < 128) : ∀ (n : Nat) (a b : Bytes), a.length ≤ n → Jiter.utf8Valid (a ++ c :: b) = true →
    Jiter.utf8Valid a = true ∧ Jiter.utf8Valid b = true
  | n, [], b, _, h => by
    unfold Jiter.utf8Valid at h
    rw [List.nil_append] at h
    simp only at h
    rw [if_pos (show c < 0x80 from hc)] at h
    exact ⟨rfl, h⟩
  | 0, _ :: _, _, hn, _ => by simp at hn
  | n + 1, x :: a, b, hn, h => by
    have hcont : Jiter.isCont c = false := by
      unfold Jiter.isCont
      have : ¬ (0x80 : Byte) ≤ c := fun h => by
        have : (0x80 : Byte).toNat ≤ c.toNat := h
        simp at this
        omega
      simp [this]
    simp only [List.length_cons] at hn
    rw [List.cons_append] at h
    have ih := fun a hn h => utf8_split hc n a b hn h
    generalize Jiter.utf8Valid b = vb at ih
    unfold Jiter.utf8Valid at h ⊢
    split at h
    · rename_i h1
      rw [if_pos h1]
      exact ih a (by omega) h
    · rename_i h1
      rw [if_neg h1]
      split at h
      · rename_i h2
        rw [if_pos h2]
        rcases a with _ | ⟨y, a⟩
        · simp [hcont] at h
        · simp only [List.cons_append, Bool.and_eq_true, List.length_cons] at h hn ⊢
          have := ih a (by omega) h.2
          exact ⟨⟨h.1, this.1⟩, this.2⟩
      · rename_i h2
        rw [if_neg h2]
        split at h
        · rename_i h3
          rw [if_pos h3]
          rcases a with _ | ⟨y, _ | ⟨z, a⟩⟩
          · rcases b with _ | ⟨y, b⟩ <;> simp [hcont] at h
          · simp [hcont] at h
          · simp only [List.cons_append, Bool.and_eq_true, List.length_cons] at h hn ⊢
            have := ih a (by omega) h.2
            exact ⟨⟨h.1, this.1⟩, this.2⟩
        · rename_i h3
          rw [if_neg h3]
          split at h
          · rename_i h4
            rw [if_pos h4]
            rcases a with _ | ⟨y, _ | ⟨z, _ | ⟨u, a⟩⟩⟩
            · rcases b with _ | ⟨y, _ | ⟨z, b⟩⟩ <;> simp [hcont] at h
            · rcases b with _ | ⟨z, b⟩ <;> simp [hcont] at h
            · simp [hcont] at h
            · simp only [List.cons_append, Bool.and_eq_true, List.length_cons] at h hn ⊢
              have := ih a (by omega) h.2
              exact ⟨⟨h.1, this.1⟩, this.2⟩
          · cases h

/-! ## Lines -/

theorem trim_chomp (l : Bytes) : trim (chomp l) = trim l := by
  unfold chomp
  split
  · rename_i h
    obtain ⟨t, rfl⟩ := List.getLast?_eq_some_iff.1 h
    rw [List.dropLast_concat, trim_snoc (by decide)]
  · rfl

theorem utf8_chomp {l : Bytes} (h : Jiter.utf8Valid l = true) : Jiter.utf8Valid (chomp l) = true := by
  unfold chomp
  split
  · rename_i e
    obtain ⟨t, rfl⟩ := List.getLast?_eq_some_iff.1 e
    rw [List.dropLast_concat]
    exact (utf8_split (c := 13) (by decide) _ t [] (Nat.le_refl _) h).1
  · exact h

theorem lines_utf8 : ∀ (t acc : Bytes), Jiter.utf8Valid (acc ++ t) = true → ∀ l ∈ linesFrom acc t, Jiter.utf8Valid l = true
  | [], acc, h, l, hl => by
    unfold linesFrom at hl
    split at hl
    · cases hl
    · simp only [List.mem_singleton] at hl
      rw [hl]
      rwa [List.append_nil] at h
  | c :: t, acc, h, l, hl => by
    unfold linesFrom at hl
    split at hl
    · rename_i e
      subst e
      have hs := utf8_split (c := 10) (by decide) _ acc t (Nat.le_refl _) h
      rcases List.mem_cons.1 hl with rfl | hl
      · exact utf8_chomp hs.1
      · exact lines_utf8 t [] hs.2 l hl
    · exact lines_utf8 t _ (by simpa using h) l hl

theorem lines_append : ∀ (a acc t : Bytes), 10 ∉ a → linesFrom acc (a ++ t) = linesFrom (acc ++ a) t
  | [], acc, t, _ => by simp
  | c :: a, acc, t, h => by
    rw [List.cons_append, linesFrom, if_neg (fun e => h (by simp [e])), lines_append a _ t (fun e => h (by simp [e]))]
    simp

/-- What there is on the lines, without the blank lines and the white space around. -/
def inked (ls : List Bytes) : List Bytes := (ls.map trim).filter fun l => decide (l ≠ [])

theorem inked_cons (l : Bytes) (ls : List Bytes) : inked (l :: ls) = (if trim l = [] then [] else [trim l]) ++ inked ls := by
  unfold inked
  rw [List.map_cons, List.filter_cons]
  split <;> rename_i h
  · simp only [ne_eq, decide_eq_true_eq] at h
    rw [if_neg h]
    rfl
  · simp only [ne_eq, decide_eq_true_eq, Decidable.not_not] at h
    rw [if_pos h]
    rfl

theorem inked_spaces {rest : Bytes} : ∀ (s acc : Bytes), Spaces acc → Spaces s →
    ∃ acc', Spaces acc' ∧ inked (linesFrom acc (s ++ rest)) = inked (linesFrom acc' rest)
  | [], acc, ha, _ => ⟨acc, ha, rfl⟩
  | c :: s, acc, ha, hs => by
    have hs' : Spaces s := fun x hx => hs x (by simp [hx])
    rw [List.cons_append, linesFrom]
    split
    · obtain ⟨acc', h1, h2⟩ := inked_spaces (rest := rest) s [] spaces_nil hs'
      refine ⟨acc', h1, ?_⟩
      rw [inked_cons, trim_chomp, trim_spaces ha, if_pos rfl, h2]
      rfl
    · exact inked_spaces s _ (spaces_append ha (fun x hx => by simp at hx; rw [hx]; exact hs c (by simp))) hs'

theorem inked_end {s acc : Bytes} (ha : Spaces acc) (hs : Spaces s) : inked (linesFrom acc s) = [] := by
  obtain ⟨acc', h1, h2⟩ := inked_spaces (rest := []) s acc ha hs
  rw [List.append_nil] at h2
  rw [h2]
  unfold linesFrom
  split
  · rfl
  · rw [inked_cons, trim_spaces h1]
    rfl

/-- A document, and then a new line. -/
theorem inked_text {sp body rest : Bytes} (hsp : Spaces sp) (hb : Framed body) : ∀ (s sp' : Bytes), Spaces sp' → Spaces s → 10 ∈ s →
    ∃ acc', Spaces acc' ∧ inked (linesFrom (sp ++ (body ++ sp')) (s ++ rest)) = body :: inked (linesFrom acc' rest)
  | [], _, _, _, h => by cases h
  | c :: s, sp', hsp', hs, h => by
    have hs' : Spaces s := fun x hx => hs x (by simp [hx])
    rw [List.cons_append, linesFrom]
    split
    · obtain ⟨acc', h1, h2⟩ := inked_spaces (rest := rest) s [] spaces_nil hs'
      refine ⟨acc', h1, ?_⟩
      rw [inked_cons, trim_chomp, trim_text hsp hb hsp', if_neg hb.ne, h2]
      rfl
    · rename_i hc
      have := inked_text (rest := rest) hsp hb s (sp' ++ [c]) (spaces_append hsp' (fun x hx => by simp at hx; rw [hx]; exact hs c (by simp))) hs'
        ((List.mem_cons.1 h).resolve_left fun e => hc e.symm)
      simpa using this

/-- A document, and then the end of the input. -/
theorem inked_last {sp body : Bytes} (hsp : Spaces sp) (hb : Framed body) : ∀ (s sp' : Bytes), Spaces sp' → Spaces s →
    inked (linesFrom (sp ++ (body ++ sp')) s) = [body]
  | [], sp', hsp', _ => by
    rw [linesFrom, if_neg (fun e => hb.ne (List.append_eq_nil_iff.1 (List.append_eq_nil_iff.1 e).2).1), inked_cons, trim_text hsp hb hsp', if_neg hb.ne]
    rfl
  | c :: s, sp', hsp', hs => by
    have hs' : Spaces s := fun x hx => hs x (by simp [hx])
    rw [linesFrom]
    split
    · rw [inked_cons, trim_chomp, trim_text hsp hb hsp', if_neg hb.ne, inked_end spaces_nil hs']
      rfl
    · have := inked_last hsp hb s (sp' ++ [c]) (spaces_append hsp' (fun x hx => by simp at hx; rw [hx]; exact hs c (by simp))) hs'
      simpa using this

/-- Each document is on a line of its own. -/
def OnLines : Docs → Prop
  | [] => True
  | (_, v) :: ds => 10 ∉ v.text ∧ (∀ d ∈ ds, 10 ∈ d.1) ∧ OnLines ds

theorem inked_more {tail : Bytes} (ht : Spaces tail) : ∀ (ds : Docs) (v : Val) (acc : Bytes), Spaces acc → Framed v.text → 10 ∉ v.text →
    (∀ d ∈ ds, Spaces d.1 ∧ Framed d.2.text) → (∀ d ∈ ds, 10 ∈ d.1) → OnLines ds →
    inked (linesFrom acc (v.text ++ Docs.text ds tail)) = v.text :: ds.map (·.2.text)
  | [], v, acc, ha, hv, hn, _, _, _ => by
    rw [lines_append _ _ _ hn]
    have := inked_last ha hv tail [] spaces_nil ht
    rw [List.append_nil] at this
    exact this
  | (w', v') :: ds, v, acc, ha, hv, hn, hd, h10, hl => by
    have hd' : Spaces w' ∧ Framed v'.text := hd (w', v') (by simp)
    obtain ⟨acc2, k1, k2⟩ := inked_text (rest := v'.text ++ Docs.text ds tail) ha hv w' [] spaces_nil hd'.1 (h10 (w', v') (by simp))
    rw [List.append_nil] at k2
    rw [lines_append _ _ _ hn, Docs.text, k2, inked_more ht ds v' acc2 k1 hd'.2 hl.1 (fun d h => hd d (by simp [h])) hl.2.1 hl.2.2]
    rfl

theorem inked_docs {tail : Bytes} (ht : Spaces tail) : ∀ (ds : Docs), (∀ d ∈ ds, Spaces d.1 ∧ Framed d.2.text) → OnLines ds →
    inked (linesFrom [] (Docs.text ds tail)) = ds.map (·.2.text)
  | [], _, _ => inked_end spaces_nil ht
  | (w, v) :: ds, hd, hl => by
    obtain ⟨acc', h1, h2⟩ := inked_spaces (rest := v.text ++ Docs.text ds tail) w [] spaces_nil (hd (w, v) (by simp)).1
    rw [Docs.text, h2, inked_more ht ds v acc' h1 (hd (w, v) (by simp)).2 hl.1 (fun d h => hd d (by simp [h])) hl.2.1 hl.2.2]
    rfl

/-! ## The first line -/

theorem cutLine_cases : ∀ (s : Bytes), (∃ l rest, s = l ++ 10 :: rest ∧ 10 ∉ l ∧ cutLine s = (l ++ [10], rest)) ∨ (10 ∉ s ∧ cutLine s = (s, []))
  | [] => .inr ⟨by simp, rfl⟩
  | c :: s => by
    by_cases hc : c = 10
    · subst hc
      exact .inl ⟨[], s, rfl, by simp, rfl⟩
    · unfold cutLine
      simp only
      rw [if_neg hc]
      rcases cutLine_cases s with ⟨l, rest, e, h, h'⟩ | ⟨h, h'⟩
      · rw [h']
        exact .inl ⟨c :: l, rest, by rw [e]; rfl, by simp [h, Ne.symm hc], rfl⟩
      · rw [h']
        exact .inr ⟨by simp [h, Ne.symm hc], rfl⟩

theorem cutLine_eq (s : Bytes) : s = (cutLine s).1 ++ (cutLine s).2 := by
  rcases cutLine_cases s with ⟨l, rest, e, _, h⟩ | ⟨_, h⟩
  · rw [h, e]; simp
  · rw [h]; simp

theorem inked_cut (s : Bytes) : inked (linesFrom [] s) = (if trim (cutLine s).1 = [] then [] else [trim (cutLine s).1]) ++ inked (linesFrom [] (cutLine s).2) := by
  rcases cutLine_cases s with ⟨l, rest, e, h, h'⟩ | ⟨h, h'⟩
  · rw [h', e, lines_append _ _ _ h, List.nil_append, linesFrom, if_pos rfl, inked_cons, trim_chomp, trim_snoc (by decide)]
  · rw [h']
    have := lines_append s [] [] h
    rw [List.append_nil, List.nil_append] at this
    rw [this]
    unfold linesFrom
    split
    · rename_i e
      rw [e]
      rfl
    · rw [inked_cons]
      rfl

end Verif.Bench
