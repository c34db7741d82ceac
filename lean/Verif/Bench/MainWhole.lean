import Verif.Bench.MainProps
import Verif.Scan.AcceptProps

/-!
# What the benchmark's program accepts (C86)
-/

namespace Verif.Bench

open Verif.RJiter Verif.Scan Verif.Ddb

variable {ν : Type}

/-! ## Specification -/

/-- The characters with the property `White_Space` of Unicode. -/
def UniWhite (c : Char) : Prop :=
  (9 ≤ c.toNat ∧ c.toNat ≤ 13) ∨ c.toNat = 0x20 ∨ c.toNat = 0x85 ∨ c.toNat = 0xA0 ∨ c.toNat = 0x1680 ∨ (0x2000 ≤ c.toNat ∧ c.toNat ≤ 0x200A) ∨
    c.toNat = 0x2028 ∨ c.toNat = 0x2029 ∨ c.toNat = 0x202F ∨ c.toNat = 0x205F ∨ c.toNat = 0x3000

/-- Nothing but such characters, in UTF-8. -/
def Margin (s : Bytes) : Prop := ∃ cs, (∀ c ∈ cs, UniWhite c) ∧ s = encAll cs

/-- The document stands for a value that is converted into `y`. -/
def Took (S : Serde ν) (a : Args) (v : Val) (y : Value ν) : Prop := ∃ x, Stands S.toNumbers v x ∧ a.conv S.toNumbers x = .ok y

/-- The lines with newlines between them. -/
def joined : List Bytes → Bytes
  | [] => []
  | [l] => l
  | l :: ls => l ++ 10 :: joined ls

/-- On each line is white space only, or one document with white space around it; `P` is between the documents and `ys`. -/
inductive Runs (P : Val → Value ν → Prop) : List Bytes → List (Value ν) → Prop where
  | nil : Runs P [] []
  | blank (l : Bytes) (ls : List Bytes) (ys : List (Value ν)) : Margin l → Runs P ls ys → Runs P (l :: ls) ys
  | doc (p : Bytes) (v : Val) (q : Bytes) (ls : List Bytes) (y : Value ν) (ys : List (Value ν)) : Margin p → Margin q → P v y → Runs P ls ys →
      Runs P ((p ++ (v.text ++ q)) :: ls) (y :: ys)

/-! ## White space -/

theorem margin_nil : Margin [] := ⟨[], nofun, rfl⟩

theorem margin_append {a b : Bytes} (ha : Margin a) (hb : Margin b) : Margin (a ++ b) := by
  obtain ⟨x, h1, rfl⟩ := ha
  obtain ⟨y, h2, rfl⟩ := hb
  exact ⟨x ++ y, fun c hc => (List.mem_append.1 hc).elim (h1 c) (h2 c), by simp [encAll]⟩

theorem margin_char {c : Char} (h : UniWhite c) : Margin (enc c) := ⟨[c], by simpa using h, by simp [encAll]⟩

theorem margin_code {s : Bytes} (n : Nat) (h : UniWhite (Char.ofNat n)) (e : enc (Char.ofNat n) = s) : Margin s := e ▸ margin_char h

theorem asciiWhite_margin {c : Byte} (h : asciiWhite c = true) : Margin [c] := by
  have : ∀ n : Fin 256, asciiWhite (UInt8.ofNat n.val) = true → enc (Char.ofNat n.val) = [UInt8.ofNat n.val] ∧
      ((9 ≤ (Char.ofNat n.val).toNat ∧ (Char.ofNat n.val).toNat ≤ 13) ∨ (Char.ofNat n.val).toNat = 0x20) := by decide +kernel
  have := this ⟨c.toNat, c.toNat_lt⟩ (by rw [UInt8.ofNat_toNat]; exact h)
  rw [UInt8.ofNat_toNat] at this
  exact margin_code _ (this.2.elim .inl fun h => .inr (.inl h)) this.1

theorem spaces_margin : ∀ {s : Bytes}, Spaces s → Margin s
  | [], _ => margin_nil
  | c :: s, h => margin_append (a := [c]) (asciiWhite_margin (space_white (h c (by simp)))) (spaces_margin fun x hx => h x (by simp [hx]))

theorem general_margin {d : Byte} (h : (0x80 ≤ d ∧ d ≤ 0x8A) ∨ d = 0xA8 ∨ d = 0xA9 ∨ d = 0xAF) : Margin [0xE2, 0x80, d] := by
  rcases h with ⟨h1, h2⟩ | rfl | rfl | rfl
  · have : ∀ n : Fin 256, 0x80 ≤ n.val → n.val ≤ 0x8A → enc (Char.ofNat (0x1F80 + n.val)) = [0xE2, 0x80, UInt8.ofNat n.val] ∧
        0x2000 ≤ (Char.ofNat (0x1F80 + n.val)).toNat ∧ (Char.ofNat (0x1F80 + n.val)).toNat ≤ 0x200A := by decide +kernel
    have := this ⟨d.toNat, d.toNat_lt⟩ h1 h2
    rw [UInt8.ofNat_toNat] at this
    exact margin_code _ (by unfold UniWhite; omega) this.1
  · exact margin_code 0x2028 (by unfold UniWhite; decide) (by decide +kernel)
  · exact margin_code 0x2029 (by unfold UniWhite; decide) (by decide +kernel)
  · exact margin_code 0x202F (by unfold UniWhite; decide) (by decide +kernel)

theorem white_margin {s t : Bytes} (h : white s = some t) : ∃ p, Margin p ∧ s = p ++ t := by
  unfold white at h
  split at h
  · cases h
  · rename_i c r
    split at h
    · rename_i hc
      cases h
      exact ⟨[c], asciiWhite_margin hc, rfl⟩
    · split at h
      · split at h
        · rename_i hd
          cases h
          rcases hd with rfl | rfl
          · exact ⟨[0xC2, 0x85], margin_code 0x85 (by unfold UniWhite; decide) (by decide +kernel), rfl⟩
          · exact ⟨[0xC2, 0xA0], margin_code 0xA0 (by unfold UniWhite; decide) (by decide +kernel), rfl⟩
        · cases h
      · cases h
        exact ⟨[0xE1, 0x9A, 0x80], margin_code 0x1680 (by unfold UniWhite; decide) (by decide +kernel), rfl⟩
      · split at h
        · rename_i hd
          cases h
          exact ⟨_, general_margin hd, rfl⟩
        · cases h
      · cases h
        exact ⟨[0xE2, 0x81, 0x9F], margin_code 0x205F (by unfold UniWhite; decide) (by decide +kernel), rfl⟩
      · cases h
        exact ⟨[0xE3, 0x80, 0x80], margin_code 0x3000 (by unfold UniWhite; decide) (by decide +kernel), rfl⟩
      · cases h

theorem whiteBack_margin {s t : Bytes} (h : whiteBack s = some t) : ∃ p, Margin p ∧ s.reverse = t.reverse ++ p := by
  unfold whiteBack at h
  split at h
  · cases h
  · rename_i c r
    split at h
    · rename_i hc
      cases h
      exact ⟨[c], asciiWhite_margin hc, by simp⟩
    · split at h
      · split at h
        · rename_i hd
          cases h
          rcases hd with rfl | rfl
          · exact ⟨[0xC2, 0x85], margin_code 0x85 (by unfold UniWhite; decide) (by decide +kernel), by simp⟩
          · exact ⟨[0xC2, 0xA0], margin_code 0xA0 (by unfold UniWhite; decide) (by decide +kernel), by simp⟩
        · cases h
      · split at h
        · rename_i hd
          cases h
          subst hd
          exact ⟨[0xE1, 0x9A, 0x80], margin_code 0x1680 (by unfold UniWhite; decide) (by decide +kernel), by simp⟩
        · cases h
      · split at h
        · rename_i hd
          cases h
          exact ⟨_, general_margin hd, by simp⟩
        · cases h
      · split at h
        · rename_i hd
          cases h
          subst hd
          exact ⟨[0xE2, 0x81, 0x9F], margin_code 0x205F (by unfold UniWhite; decide) (by decide +kernel), by simp⟩
        · cases h
      · split at h
        · rename_i hd
          cases h
          subst hd
          exact ⟨[0xE3, 0x80, 0x80], margin_code 0x3000 (by unfold UniWhite; decide) (by decide +kernel), by simp⟩
        · cases h
      · cases h

theorem strip_white : ∀ (n : Nat) (s : Bytes), ∃ p, Margin p ∧ s = p ++ strip white n s
  | 0, s => ⟨[], margin_nil, rfl⟩
  | n + 1, s => by
    unfold strip
    split
    · exact ⟨[], margin_nil, rfl⟩
    · rename_i t ht
      obtain ⟨p, hp, rfl⟩ := white_margin ht
      obtain ⟨q, hq, e⟩ := strip_white n t
      exact ⟨p ++ q, margin_append hp hq, by rw [List.append_assoc, ← e]⟩

theorem strip_whiteBack : ∀ (n : Nat) (s : Bytes), ∃ p, Margin p ∧ s.reverse = (strip whiteBack n s).reverse ++ p
  | 0, s => ⟨[], margin_nil, by simp [strip]⟩
  | n + 1, s => by
    unfold strip
    split
    · exact ⟨[], margin_nil, by simp⟩
    · rename_i t ht
      obtain ⟨p, hp, e1⟩ := whiteBack_margin ht
      obtain ⟨q, hq, e⟩ := strip_whiteBack n t
      exact ⟨q ++ p, margin_append hq hp, by rw [e1, e, List.append_assoc]⟩

/-- `str::trim` takes white space away at both ends, and nothing else. -/
theorem trim_parts (s : Bytes) : ∃ p q, Margin p ∧ Margin q ∧ s = p ++ (trim s ++ q) := by
  obtain ⟨p, hp, e⟩ := strip_white s.length s
  obtain ⟨q, hq, e'⟩ := strip_whiteBack (strip white s.length s).length (strip white s.length s).reverse
  rw [List.reverse_reverse] at e'
  refine ⟨p, q, hp, hq, ?_⟩
  unfold trim
  simp only
  rw [← e']
  exact e

/-- At the front of text that begins with a visible character it takes nothing away. -/
theorem trim_ink {c : Byte} (hc : Ink c) (s : Bytes) : ∃ q, Margin q ∧ c :: s = trim (c :: s) ++ q := by
  rw [trim_eq, peel_none (white_ink hc s)]
  unfold peel
  obtain ⟨q, hq, e⟩ := strip_whiteBack (c :: s).reverse.length (c :: s).reverse
  rw [List.reverse_reverse] at e
  exact ⟨q, hq, e⟩

/-! ## Accepted lines -/

variable {S : Serde ν} {a : Args}

theorem runs_line (hS : S.Real) {acc : Bytes} {more : List Bytes} {ys : List (Value ν)}
    (h : Each (Turns S a) ((if trim acc = [] then [] else [trim acc]) ++ more) ys) :
    ∃ ys', Each (Turns S a) more ys' ∧ ∀ ls, Runs (Took S a) ls ys' → Runs (Took S a) (acc :: ls) ys := by
  obtain ⟨p, q, hp, hq, e⟩ := trim_parts acc
  split at h
  · rename_i ht
    rw [ht, List.nil_append] at e
    exact ⟨ys, h, fun ls hl => .blank _ _ _ (e ▸ margin_append hp hq) hl⟩
  · rcases ys with _ | ⟨y, ys⟩
    · exact h.elim
    · obtain ⟨⟨x, hx, hy⟩, h2⟩ := h
      obtain ⟨w, v, w', hw, hw', ew, hv⟩ := hS.sound _ _ hx
      refine ⟨ys, h2, fun ls hl => ?_⟩
      have := Runs.doc (P := Took S a) (p ++ w) v (w' ++ q) ls y ys (margin_append hp (spaces_margin hw)) (margin_append (spaces_margin hw') hq) ⟨x, hv, hy⟩ hl
      rwa [show (p ++ w) ++ (v.text ++ (w' ++ q)) = acc by rw [e, ew]; simp] at this

theorem each_nil {α β : Type} {R : α → β → Prop} {ys : List β} (h : Each R [] ys) : ys = [] := by
  cases ys with
  | nil => rfl
  | cons _ _ => exact h.elim

theorem runs_lines (hS : S.Real) : ∀ (s acc : Bytes) (ys : List (Value ν)), 10 ∉ acc → Each (Turns S a) (inked (linesFrom acc s)) ys →
    ∃ ls, ls ≠ [] ∧ (∀ l ∈ ls, 10 ∉ l) ∧ acc ++ s = joined ls ∧ Runs (Took S a) ls ys
  | [], acc, ys, ha, h => by
    refine ⟨[acc], nofun, by simpa using ha, by simp [joined], ?_⟩
    unfold linesFrom at h
    split at h
    · rename_i e
      rw [e, each_nil h]
      exact .blank _ _ _ margin_nil .nil
    · rw [inked_cons] at h
      obtain ⟨ys', h1, h2⟩ := runs_line hS h
      rw [each_nil h1] at h2
      exact h2 [] .nil
  | c :: s, acc, ys, ha, h => by
    rw [linesFrom] at h
    split at h
    · rename_i hc
      subst hc
      rw [inked_cons, trim_chomp] at h
      obtain ⟨ys', h1, h2⟩ := runs_line hS h
      obtain ⟨ls, h3, h4, h5, h6⟩ := runs_lines hS s [] ys' (by simp) h1
      refine ⟨acc :: ls, nofun, ?_, ?_, h2 ls h6⟩
      · intro l hl
        rcases List.mem_cons.1 hl with rfl | hl
        · exact ha
        · exact h4 l hl
      · rcases ls with _ | ⟨l, ls⟩
        · exact absurd rfl h3
        · rw [joined, ← h5]
          · rfl
          · nofun
    · rename_i hc
      obtain ⟨ls, h1, h2, h3, h4⟩ := runs_lines hS s (acc ++ [c]) ys (by simp [ha, Ne.symm hc]) h
      exact ⟨ls, h1, h2, by rw [← h3]; simp, h4⟩

/-- **C86**, what is accepted: if the program ends without an error, then either the input is one document between spaces, or each of its lines is blank or
has one document with white space around it. Each document stands for a value that is converted without an error, and the results are printed in the
order of the documents. The white space around a document on a line of its own is that of Unicode (`C86_nbsp`), not only that of JSON. -/
theorem C86_sound (hS : S.Real) (input out : Bytes) (h : main S a input = (out, none)) :
    ∃ ys, out = printed S a ys ∧
      ((∃ w v w' y, Spaces w ∧ Spaces w' ∧ input = w ++ (v.text ++ w') ∧ Took S a v y ∧ ys = [y]) ∨
        ∃ ls, (∀ l ∈ ls, 10 ∉ l) ∧ input = joined ls ∧ Runs (Took S a) ls ys) := by
  have single : ∀ {first rest : Bytes}, input = first ++ rest → processJson S a first rest = (out, none) → ∃ ys, out = printed S a ys ∧
      ((∃ w v w' y, Spaces w ∧ Spaces w' ∧ input = w ++ (v.text ++ w') ∧ Took S a v y ∧ ys = [y]) ∨
        ∃ ls, (∀ l ∈ ls, 10 ∉ l) ∧ input = joined ls ∧ Runs (Took S a) ls ys) := by
    intro first rest e h
    obtain ⟨y, ⟨x, hx, hy⟩, ho⟩ := json_inv h
    obtain ⟨w, v, w', hw, hw', ew, hv⟩ := hS.sound _ _ hx
    exact ⟨[y], ho, .inl ⟨w, v, w', y, hw, hw', e.trans ew, ⟨x, hv, hy⟩, rfl⟩⟩
  unfold main at h
  split at h
  · obtain ⟨ys, h1, ho⟩ := jsonl_inv h
    rw [if_pos (show trim [] = [] from rfl), List.nil_append] at h1
    obtain ⟨ls, _, h2, h3, h4⟩ := runs_lines hS input [] ys (by simp) h1
    exact ⟨ys, ho, .inr ⟨ls, h2, h3, h4⟩⟩
  · have hc := cutLine_eq input
    have hi := inked_cut input
    rcases e : cutLine input with ⟨first, rest⟩
    rw [e] at h hc hi
    simp only at h hc hi
    split at h
    · cases h
    split at h
    · exact single hc h
    split at h
    · obtain ⟨ys, h1, ho⟩ := jsonl_inv h
      rw [← hi] at h1
      obtain ⟨ls, _, h2, h3, h4⟩ := runs_lines hS input [] ys (by simp) h1
      exact ⟨ys, ho, .inr ⟨ls, h2, h3, h4⟩⟩
    · exact single hc h

/-! ## One document -/

theorem str_raw {N : Numbers ν} {body s : Bytes} (h : (reading N).str body s) : RawBody body := by
  obtain ⟨_, h, _⟩ := h
  exact h.raw

theorem head_plain (v : Val) (m : Bytes) : v.HeadMeets .plain m := by
  cases v with
  | obj w ms => cases ms <;> trivial
  | _ => trivial

mutual
theorem stands_meets {N : Numbers ν} : ∀ {v : Val} {x : Value ν}, Stands N v x → v.Meets .plain
  | .atom tok, x, h => by
    show IsAtom _ _ tok
    cases (show AtomGives (reading N) (build N) tok x from h) with
    | null => exact .null
    | true => exact .true
    | false => exact .false
    | number _ hn _ => exact .number _ hn trivial
    | string body s hs => exact .string _ (str_raw hs) trivial
  | .arr w is, x, h => by
    obtain ⟨h1, l, h2, _⟩ := h
    exact ⟨h1, gives_items h2⟩
  | .obj w ms, x, h => by
    obtain ⟨h1, l, h2, _⟩ := h
    exact ⟨h1, gives_members h2⟩
theorem gives_items {N : Numbers ν} : ∀ {is : Items} {l : List (Value ν)}, is.Gives (reading N) (build N) l → is.Meets .plain
  | .nil, _, _ => trivial
  | .cons _ _ _ _, _, h => by
    obtain ⟨h1, h2, _, _, h3, h4, _⟩ := h
    exact ⟨h1, stands_meets h3, h2, gives_items h4⟩
theorem gives_members {N : Numbers ν} : ∀ {ms : Members} {l : List (Bytes × Value ν)}, ms.Gives (reading N) (build N) l → ms.Meets .plain
  | .nil, _, _ => trivial
  | .cons _ _ _ _ v _ _, _, h => by
    obtain ⟨h1, h2, h3, h4, _, _, _, hk, hv, hm, _⟩ := h
    exact ⟨h1, ⟨str_raw hk, trivial⟩, h2, h3, stands_meets hv, head_plain v _, h4, gives_members hm⟩
end

theorem body_line {body : Bytes} (h : RawBody body) : 10 ∉ body := by
  have hex : ∀ {c : Byte} {n : Nat}, HexDigit c n → 10 ≠ c := by
    rintro c n h rfl
    rcases h with h | h | h <;> simp at h
  induction h with
  | nil => simp
  | char ch r hp _ ih =>
    intro hm
    rcases List.mem_append.1 hm with hm | hm
    · exact (enc_plain hp 10 hm).2.2 (by decide)
    · exact ih hm
  | esc e x r he _ ih =>
    have := (escape_mem he).1
    have hne : 10 ≠ e := by rintro rfl; simp at this
    simp [ih, hne]
  | uni a b c d v r h4 _ ih =>
    obtain ⟨_, _, _, _, h1, h2, h3, h4, _⟩ := h4
    simp [ih, hex h1, hex h2, hex h3, hex h4]

theorem atom_line {N : Numbers ν} {tok : Bytes} {x : Value ν} (h : AtomGives (reading N) (build N) tok x) : 10 ∉ tok := by
  cases h with
  | null => decide
  | true => decide
  | false => decide
  | number _ hn _ => intro hm; have := (number_ink hn 10 hm).1; simp at this
  | string body s hs => simp [body_line (str_raw hs)]

/-- A document does not begin with another one, unless it is a number. -/
theorem stands_prefix {N : Numbers ν} {v v' : Val} {x x' : Value ν} {r : Bytes} (h : Stands N v x) (h' : Stands N v' x') (hn : ¬ ∃ tok, v = .atom tok)
    (e : v.text = v'.text ++ r) : r = [] := by
  have hc : v.Clear [] := by
    cases v with
    | atom tok => exact absurd ⟨tok, rfl⟩ hn
    | _ => trivial
  have hc' : v'.Clear r := by
    cases v' with
    | atom tok =>
      intro hnum
      cases v with
      | atom tok => exact absurd ⟨tok, rfl⟩ hn
      | arr w is => exact (number_not hnum (c := 91) (t := w ++ (is.text ++ [93])) (x' := []) (x := r) (by decide) (by rw [List.append_nil]; simpa [Val.text] using e.symm)).elim
      | obj w is => exact (number_not hnum (c := 123) (t := w ++ (is.text ++ [125])) (x' := []) (x := r) (by decide) (by rw [List.append_nil]; simpa [Val.text] using e.symm)).elim
    | _ => trivial
  exact (Val.unique (strict := True) v v' (stands_meets h) (Val.Meets.loose (stands_meets h')).1 (.inl trivial) hc hc' (by rw [List.append_nil]; exact e)).2

/-- The first line of a document with more lines is not a document. -/
theorem first_line (hS : S.Real) {w r' : Bytes} {v : Val} {x : Value ν} (hw : Spaces w) (h1 : Stands S.toNumbers v x) (hnw : 10 ∉ w) (hv : 10 ∈ v.text) :
    (S.read (trim (cutLine (w ++ (v.text ++ r'))).1)).isSome = false := by
  have hna : ¬ ∃ tok, v = .atom tok := by
    rintro ⟨tok, rfl⟩
    exact atom_line h1 hv
  obtain ⟨l, r, hlr, hl⟩ : ∃ l r, v.text = l ++ 10 :: r ∧ 10 ∉ l := by
    rcases cutLine_cases v.text with ⟨l, r, e, h, _⟩ | ⟨h, _⟩
    · exact ⟨l, r, e, h⟩
    · exact absurd hv h
  have hfirst : (cutLine (w ++ (v.text ++ r'))).1 = w ++ (l ++ [10]) := by
    rw [hlr, cutLine_append w hnw, List.append_assoc, cutLine_append l hl]
    rfl
  rw [hfirst, trim_front _ _ hw, trim_snoc (by decide)]
  obtain ⟨⟨c, t, hct, hink⟩, _⟩ := stands_framed h1
  rcases l with _ | ⟨c', l⟩
  · rw [hct] at hlr
    injection hlr with e _
    rw [e] at hink
    simp [Ink] at hink
  · rw [hct, List.cons_append] at hlr
    injection hlr with e hlr
    subst e
    obtain ⟨q, _, hq⟩ := trim_ink hink l
    cases hr : S.read (trim (c :: l)) with
    | none => rfl
    | some x' =>
      obtain ⟨u, v', u', hu1, _, hu3, hv'⟩ := hS.sound _ _ hr
      rcases u with _ | ⟨d, u⟩
      · rw [List.nil_append] at hu3
        have := stands_prefix (r := u' ++ (q ++ 10 :: r)) h1 hv' hna (by
          rw [hct, hlr, ← List.cons_append, hq, hu3]
          simp)
        simp at this
      · rw [hu3] at hq
        injection hq with e _
        have := asciiWhite_small (space_white (hu1 d (by simp)))
        have := hink.1
        rw [e] at this
        omega

/-- **C86**, one document in any layout, between spaces: it is converted, and the result is printed. If the name of the file ends in `.jsonl`, the document
must be on one line. -/
theorem C86_single (hS : S.Real) (w w' : Bytes) (v : Val) (y : Value ν) (hw : Spaces w) (hw' : Spaces w') (h : Becomes S a v y)
    (hj : a.jsonl = false ∨ 10 ∉ v.text) : main S a (w ++ (v.text ++ w')) = (printed S a [y], none) := by
  by_cases hn : 10 ∉ v.text ∧ (a.jsonl = true ∨ 10 ∉ w)
  · have := C86_lines_partial hS [(w, v)] w' [y] (by simpa using hw) hw' ⟨hn.1, nofun, trivial⟩ ⟨h, trivial⟩
      (hn.2.imp id fun h => ⟨w, v, [], rfl, h⟩)
    exact this
  have hj : a.jsonl = false := by
    rcases hj with hj | hj
    · exact hj
    · cases e : a.jsonl
      · rfl
      · exact absurd ⟨hj, .inl e⟩ hn
  obtain ⟨x, h1, h2, h3⟩ := id h
  have hu : Jiter.utf8Valid (w ++ (v.text ++ w')) = true := utf8_append (utf8_spaces hw) (utf8_append (stands_utf8 h1) (utf8_spaces hw'))
  obtain ⟨u1, u2⟩ := utf8_cut hu
  have ht := turns_of hS hw hw' h
  have hc := cutLine_eq (w ++ (v.text ++ w'))
  have key : trim (cutLine (w ++ (v.text ++ w'))).1 = [] ∨ (S.read (trim (cutLine (w ++ (v.text ++ w'))).1)).isSome = false := by
    by_cases hnw : 10 ∈ w
    · left
      exact trim_spaces fun c hc => hw c (cutLine_within w hnw c hc)
    · right
      have hv : 10 ∈ v.text := Classical.byContradiction fun hv => hn ⟨hv, .inr hnw⟩
      exact first_line hS hw h1 hnw hv
  have hi : processJson S a (cutLine (w ++ (v.text ++ w'))).1 (cutLine (w ++ (v.text ++ w'))).2 = (printed S a [y], none) := json_ok u2 (by rw [← hc]; exact ht)
  unfold main
  rw [if_neg (by rw [hj]; nofun)]
  revert key u1 u2 hi
  rcases cutLine (w ++ (v.text ++ w')) with ⟨first, rest⟩
  simp only
  intro u1 u2 key hi
  rw [if_neg (by rw [u1]; nofun)]
  rcases key with key | key
  · rw [if_pos key]
    exact hi
  · rw [key]
    simp only [Bool.false_eq_true, if_false, ite_self]
    exact hi

end Verif.Bench
