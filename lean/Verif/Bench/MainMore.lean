import Verif.Bench.MainWhole

/-!
# What the benchmark's program refuses, and that it agrees with the streaming converters (C86)
-/

namespace Verif.Bench

open Verif.RJiter Verif.Scan Verif.Ddb

variable {ν : Type} {S : Serde ν} {a : Args}

/-! ## White space -/

theorem byte_of {n m : Nat} (h : n < 256) (hm : n = m) : (UInt8.ofNat n).toNat = m := by
  rw [UInt8.toNat_ofNat_of_lt' h, hm]

theorem margin_no_ink {s : Bytes} (h : Margin s) : ∀ c ∈ s, ¬ Ink c := by
  obtain ⟨cs, h1, rfl⟩ := h
  intro c hc hink
  obtain ⟨ch, hch, hc⟩ := List.mem_flatMap.1 hc
  have hw := h1 ch hch
  unfold UniWhite at hw
  unfold Ink at hink
  rcases enc_cases ch with ⟨h1, e⟩ | ⟨h1, h2, e⟩ | ⟨h1, h2, e⟩ | ⟨h1, e⟩
  · rw [e, List.mem_singleton] at hc
    have := byte_of (n := ch.toNat) (by omega) rfl
    rw [← hc] at this
    omega
  · rw [e] at hc
    simp only [List.mem_cons, List.not_mem_nil, or_false] at hc
    rcases hc with rfl | rfl
    · have := byte_of (n := 0xC0 + ch.toNat / 64) (by omega) rfl
      omega
    · have := byte_of (n := 0x80 + ch.toNat % 64) (by omega) rfl
      omega
  · rw [e] at hc
    simp only [List.mem_cons, List.not_mem_nil, or_false] at hc
    rcases hc with rfl | rfl | rfl
    · have := byte_of (n := 0xE0 + ch.toNat / 4096) (by omega) rfl
      omega
    · have := byte_of (n := 0x80 + ch.toNat / 64 % 64) (by omega) rfl
      omega
    · have := byte_of (n := 0x80 + ch.toNat % 64) (by omega) rfl
      omega
  · omega

/-- All the characters of `UniWhite`. -/
def whites : List Nat := [9, 10, 11, 12, 13, 0x20, 0x85, 0xA0, 0x1680, 0x2000, 0x2001, 0x2002, 0x2003, 0x2004, 0x2005, 0x2006, 0x2007, 0x2008, 0x2009, 0x200A,
  0x2028, 0x2029, 0x202F, 0x205F, 0x3000]

theorem white_listed {c : Char} (h : UniWhite c) : ∃ n ∈ whites, c = Char.ofNat n := by
  refine ⟨c.toNat, ?_, (Char.ofNat_toNat c).symm⟩
  unfold UniWhite at h
  simp only [whites, List.mem_cons, List.not_mem_nil, or_false]
  omega

theorem white_enc {c : Char} (h : UniWhite c) (t : Bytes) : white (enc c ++ t) = some t := by
  obtain ⟨n, hn, rfl⟩ := white_listed h
  simp only [whites, List.mem_cons, List.not_mem_nil, or_false] at hn
  rcases hn with rfl | rfl | rfl | rfl | rfl | rfl | rfl | rfl | rfl | rfl | rfl | rfl | rfl | rfl | rfl | rfl | rfl | rfl | rfl | rfl | rfl | rfl | rfl | rfl | rfl <;> rfl

theorem whiteBack_enc {c : Char} (h : UniWhite c) (t : Bytes) : whiteBack ((enc c).reverse ++ t) = some t := by
  obtain ⟨n, hn, rfl⟩ := white_listed h
  simp only [whites, List.mem_cons, List.not_mem_nil, or_false] at hn
  rcases hn with rfl | rfl | rfl | rfl | rfl | rfl | rfl | rfl | rfl | rfl | rfl | rfl | rfl | rfl | rfl | rfl | rfl | rfl | rfl | rfl | rfl | rfl | rfl | rfl | rfl <;> rfl

theorem peel_white : ∀ (cs : List Char) (t : Bytes), (∀ c ∈ cs, UniWhite c) → peel white (encAll cs ++ t) = peel white t
  | [], _, _ => rfl
  | c :: cs, t, h => by
    rw [show encAll (c :: cs) ++ t = enc c ++ (encAll cs ++ t) by simp [encAll], peel_some white_shrinks (white_enc (h c (by simp)) _)]
    exact peel_white cs t fun x hx => h x (by simp [hx])

theorem peel_whiteBack (t : Bytes) : ∀ (cs : List Char), (∀ c ∈ cs, UniWhite c) → peel whiteBack ((encAll cs).reverse ++ t) = peel whiteBack t := by
  intro cs
  induction cs generalizing t with
  | nil => intro _; rfl
  | cons c cs ih =>
    intro h
    rw [show (encAll (c :: cs)).reverse ++ t = (encAll cs).reverse ++ ((enc c).reverse ++ t) by simp [encAll], ih _ fun x hx => h x (by simp [hx]),
      peel_some whiteBack_shrinks (whiteBack_enc (h c (by simp)) _)]

/-- White space around visible text. -/
theorem trim_margin {p s q : Bytes} (hp : Margin p) (hs : Framed s) (hq : Margin q) : trim (p ++ (s ++ q)) = s := by
  obtain ⟨cs, h1, rfl⟩ := hp
  obtain ⟨ds, h2, rfl⟩ := hq
  obtain ⟨⟨c, t, e, hc⟩, t', c', e', hc'⟩ := hs
  have h3 : peel white (s ++ encAll ds) = s ++ encAll ds := by
    rw [e]
    exact peel_none (white_ink hc _)
  have h4 : peel whiteBack s.reverse = s.reverse := by
    rw [e', List.reverse_append, List.reverse_singleton, List.singleton_append]
    exact peel_none (whiteBack_ink hc' _)
  rw [trim_eq, peel_white cs _ h1, h3, List.reverse_append, peel_whiteBack _ ds h2, h4, List.reverse_reverse]

theorem trim_margin_only {p : Bytes} (hp : Margin p) : trim p = [] := by
  obtain ⟨cs, h1, rfl⟩ := hp
  have := peel_white cs [] h1
  rw [List.append_nil] at this
  rw [trim_eq, this]
  rfl

theorem no_ink_ends {s : Bytes} (h : ∀ c ∈ s, ¬ Ink c) : EndsNumber s := by
  intro c hc
  have hm := List.mem_of_mem_head? hc
  refine ⟨?_, ?_, ?_, ?_⟩
  · intro hd
    apply h c hm
    obtain ⟨h1, h2⟩ := hd
    have h1 : (48 : Byte).toNat ≤ c.toNat := h1
    have h2 : c.toNat ≤ (57 : Byte).toNat := h2
    simp at h1 h2
    exact ⟨by omega, by omega⟩
  all_goals
    rintro rfl
    exact h _ hm (by simp [Ink])

/-! ## Where a document ends -/

theorem ink_solid {c : Byte} (h : Ink c) : Solid c := by
  rintro ((h1 | h1 | h1 | h1) | h1) <;> (rw [h1] at h; simp [Ink] at h)

theorem doc_unique {N : Numbers ν} {w u r r' : Bytes} {v v' : Val} {x x' : Value ν} (hw : Spaces w) (hu : Spaces u) (h : Stands N v x) (h' : Stands N v' x')
    (hc : v.Clear r) (hc' : v'.Clear r') (e : w ++ (v.text ++ r) = u ++ (v'.text ++ r')) : w = u ∧ v'.strip = v.strip ∧ r' = r := by
  obtain ⟨⟨c, t, hct, hi⟩, _⟩ := stands_framed h
  obtain ⟨⟨c', t', hct', hi'⟩, _⟩ := stands_framed h'
  obtain ⟨e1, e2, e3⟩ := blank_split (a := w) (b := u) (c := c) (d := c') (x := t ++ r) (y := t' ++ r') (blank_spaces hw) (blank_spaces hu) (ink_solid hi) (ink_solid hi') (by
    rw [hct, hct'] at e
    exact e)
  refine ⟨e1, Val.unique (strict := True) v v' (stands_meets h) (Val.Meets.loose (stands_meets h')).1 (.inl trivial) hc hc' ?_⟩
  rw [hct, hct', List.cons_append, List.cons_append, e2, e3]

theorem clear_margin {r : Bytes} (h : Margin r) (v : Val) : v.Clear r := by
  cases v with
  | atom tok => exact fun _ => no_ink_ends (margin_no_ink h)
  | _ => trivial

/-! ## A reader that does what is assumed -/

/-- The text is a document between spaces, and stands for `x`. -/
def DocText (N : Numbers ν) (t : Bytes) (x : Value ν) : Prop := ∃ w v w', Spaces w ∧ Spaces w' ∧ t = w ++ (v.text ++ w') ∧ Stands N v x

theorem docText_one {N : Numbers ν} {t : Bytes} {x y : Value ν} (h : DocText N t x) (h' : DocText N t y) : x = y := by
  obtain ⟨w, v, r, hw, hr, e, hv⟩ := h
  obtain ⟨u, v', r', hu, hr', e', hv'⟩ := h'
  obtain ⟨_, hs, _⟩ := doc_unique hw hu hv hv' (clear_margin (spaces_margin hr) v) (clear_margin (spaces_margin hr') v') (e.symm.trans e')
  have h1 := Val.strip_gives v x hv
  have h2 := Val.strip_gives v' y hv'
  rw [hs] at h2
  exact stands_one h1 h2

open Classical in
/-- A reader without a limit on the depth. -/
noncomputable def exSerde (N : Numbers ν) : Serde ν where
  toNumbers := N
  read t := if h : ∃ x, DocText N t x then some h.choose else none
  compact _ := [123, 125]
  pretty _ := [123, 10, 125]

theorem exSerde_real (N : Numbers ν) : (exSerde N).Real where
  sound t x h := by
    simp only [exSerde] at h
    split at h
    · rename_i hd
      injection h with h
      exact h ▸ hd.choose_spec
    · cases h
  complete w v w' x hw hw' h _ := by
    have hd : DocText N (w ++ (v.text ++ w')) x := ⟨w, v, w', hw, hw', rfl, h⟩
    simp only [exSerde]
    rw [dif_pos ⟨x, hd⟩]
    exact congrArg some (docText_one (Exists.choose_spec (⟨x, hd⟩ : ∃ x, DocText N _ x)) hd)

/-! ## Refused -/

theorem read_two (hS : S.Real) {w w2 rest : Bytes} {v v2 : Val} {x x2 : Value ν} (hw : Spaces w) (h1 : Stands S.toNumbers v x) (h2 : Stands S.toNumbers v2 x2)
    (hc : v.Clear (w2 ++ (v2.text ++ rest))) : S.read (w ++ (v.text ++ (w2 ++ (v2.text ++ rest)))) = none := by
  cases hr : S.read (w ++ (v.text ++ (w2 ++ (v2.text ++ rest)))) with
  | none => rfl
  | some y =>
    obtain ⟨u, v', u', hu, hu', e, hv'⟩ := hS.sound _ _ hr
    obtain ⟨_, _, e⟩ := doc_unique hw hu h1 hv' hc (clear_margin (spaces_margin hu') v') e
    obtain ⟨⟨c, t, hct, hi⟩, _⟩ := stands_framed h2
    exact absurd hi (margin_no_ink (spaces_margin hu') c (by rw [e, hct]; simp))

theorem json_refused {first rest : Bytes} (hu : Jiter.utf8Valid rest = true) (h : S.read (first ++ rest) = none) :
    processJson S a first rest = ([], some .json) := by
  unfold processJson one
  rw [if_neg (by rw [hu]; nofun), h]

/-- **C86 is false** for other streams: if there are two documents or more, and the first is not alone on the first line, then nothing is converted, unless
the name of the file ends in `.jsonl`. -/
theorem C86_refused (hS : S.Real) (w w2 rest : Bytes) (v v2 : Val) (x x2 : Value ν) (hw : Spaces w) (hw2 : Spaces w2) (h1 : Stands S.toNumbers v x)
    (h2 : Stands S.toNumbers v2 x2) (hc : v.Clear (w2 ++ (v2.text ++ rest))) (hu : Jiter.utf8Valid rest = true) (hj : a.jsonl = false)
    (hn : 10 ∈ w ∨ 10 ∈ v.text ∨ 10 ∉ w2) : main S a (w ++ (v.text ++ (w2 ++ (v2.text ++ rest)))) = ([], some .json) := by
  have hutf : Jiter.utf8Valid (w ++ (v.text ++ (w2 ++ (v2.text ++ rest)))) = true :=
    utf8_append (utf8_spaces hw) (utf8_append (stands_utf8 h1) (utf8_append (utf8_spaces hw2) (utf8_append (stands_utf8 h2) hu)))
  obtain ⟨u1, u2⟩ := utf8_cut hutf
  have hcut := cutLine_eq (w ++ (v.text ++ (w2 ++ (v2.text ++ rest))))
  have hr := read_two (rest := rest) hS hw h1 h2 hc
  have key : trim (cutLine (w ++ (v.text ++ (w2 ++ (v2.text ++ rest))))).1 = [] ∨
      (S.read (trim (cutLine (w ++ (v.text ++ (w2 ++ (v2.text ++ rest))))).1)).isSome = false := by
    by_cases hnw : 10 ∈ w
    · left
      exact trim_spaces fun c hc => hw c (cutLine_within w hnw c hc)
    right
    by_cases hv : 10 ∈ v.text
    · exact first_line hS hw h1 hnw hv
    have hn2 : 10 ∉ w2 := (hn.resolve_left hnw).resolve_left hv
    obtain ⟨⟨c, t, hct, hi⟩, _⟩ := stands_framed h1
    obtain ⟨⟨c2, t2, hct2, hi2⟩, _⟩ := stands_framed h2
    have hc10 : 10 ∉ [c2] := by
      intro h
      rw [← List.mem_singleton.1 h] at hi2
      simp [Ink] at hi2
    have hfirst : (cutLine (w ++ (v.text ++ (w2 ++ (v2.text ++ rest))))).1 = w ++ (v.text ++ (w2 ++ c2 :: (cutLine (t2 ++ rest)).1)) := by
      rw [cutLine_append w hnw, cutLine_append _ hv, cutLine_append _ hn2, hct2, show c2 :: t2 ++ rest = [c2] ++ (t2 ++ rest) from rfl, cutLine_append _ hc10]
      rfl
    rw [hfirst, trim_front _ _ hw]
    generalize (cutLine (t2 ++ rest)).1 = f
    obtain ⟨q, hq, e⟩ := trim_ink hi (t ++ (w2 ++ c2 :: f))
    rw [show c :: (t ++ (w2 ++ c2 :: f)) = v.text ++ (w2 ++ c2 :: f) by rw [hct]; rfl] at e
    cases hrd : S.read (trim (v.text ++ (w2 ++ c2 :: f))) with
    | none => rfl
    | some y =>
      obtain ⟨u, v', u', hu, hu', eu, hv'⟩ := hS.sound _ _ hrd
      rw [eu] at e
      have hm := margin_append (spaces_margin hu') hq
      have hc' : v.Clear (w2 ++ c2 :: f) := by
        cases v with
        | atom tok =>
          intro hnum
          have := hc hnum
          rw [hct2] at this
          intro b hb
          apply this b
          cases w2 with
          | nil => exact hb
          | cons _ _ => exact hb
        | _ => trivial
      obtain ⟨_, _, e⟩ := doc_unique (w := []) (r := w2 ++ c2 :: f) (r' := u' ++ q) spaces_nil hu h1 hv' hc' (clear_margin hm v') (by rw [List.nil_append, e]; simp)
      exact absurd hi2 (margin_no_ink hm c2 (by rw [e]; simp))
  unfold main
  rw [if_neg (by rw [hj]; nofun)]
  revert key u1 u2 hcut
  rcases cutLine (w ++ (v.text ++ (w2 ++ (v2.text ++ rest)))) with ⟨first, more⟩
  simp only
  intro u1 u2 hcut key
  have hi : processJson S a first more = ([], some .json) := json_refused u2 (by rw [← hcut]; exact hr)
  rw [if_neg (by rw [u1]; nofun)]
  rcases key with key | key
  · rw [if_pos key]
    exact hi
  · rw [key]
    simp only [Bool.false_eq_true, if_false, ite_self]
    exact hi

theorem read_empty (hS : S.Real) : S.read [] = none := by
  cases hr : S.read [] with
  | none => rfl
  | some y =>
    obtain ⟨u, v, u', _, _, e, hv⟩ := hS.sound _ _ hr
    exact absurd (List.append_eq_nil_iff.1 (List.append_eq_nil_iff.1 e.symm).2).1 (stands_framed hv).ne

/-- **C86 is false** for no documents at all: empty input is an error, unless the name of the file ends in `.jsonl`. The streaming converters
return `Ok` (C51). -/
theorem C86_empty (hS : S.Real) : main S a [] = ([], if a.jsonl then none else some .json) := by
  unfold main
  by_cases h : a.jsonl = true
  · rw [if_pos h, if_pos h]
    rfl
  · rw [if_neg h, if_neg h]
    have : processJson S a [] [] = ([], some .json) := json_refused rfl (read_empty hS)
    exact this

/-- **C86 is false** in the form that only JSON is accepted: a no-break space before a document on the first line is skipped. -/
theorem C86_nbsp (hS : S.Real) (v : Val) (y : Value ν) (h : Becomes S a v y) (hl : 10 ∉ v.text) :
    main S a (0xC2 :: 0xA0 :: v.text) = (printed S a [y], none) := by
  obtain ⟨x, hv, _⟩ := id h
  have hf := stands_framed hv
  have ht : trim (0xC2 :: 0xA0 :: v.text) = v.text := by
    have := trim_margin (p := [0xC2, 0xA0]) (q := []) (margin_code 0xA0 (by unfold UniWhite; decide) (by decide +kernel)) hf margin_nil
    rwa [List.append_nil] at this
  have hu : Jiter.utf8Valid (0xC2 :: 0xA0 :: v.text) = true := utf8_append (a := [0xC2, 0xA0]) (by decide) (stands_utf8 hv)
  have hn : 10 ∉ (0xC2 :: 0xA0 :: v.text : Bytes) := by simp [hl]
  have hc : cutLine (0xC2 :: 0xA0 :: v.text) = (0xC2 :: 0xA0 :: v.text, []) := by
    have := cutLine_append (0xC2 :: 0xA0 :: v.text) (r := []) hn
    simpa [cutLine] using this
  have hi := inked_cut (0xC2 :: 0xA0 :: v.text)
  rw [hc] at hi
  simp only at hi
  rw [ht, if_neg hf.ne] at hi
  have he : Each (Turns S a) ([v.text] ++ inked (linesFrom [] [])) [y] := ⟨turns_bare hS h, trivial⟩
  unfold main
  split
  · exact jsonl_ok hu (by rw [if_pos (show trim [] = [] from rfl), List.nil_append, hi]; exact he)
  · rw [hc]
    simp only
    obtain ⟨x', hx', _⟩ := turns_bare hS h
    rw [if_neg (by rw [hu]; nofun), ht, if_neg hf.ne, if_pos (by rw [hx']; rfl)]
    exact jsonl_ok rfl (by rw [ht, if_neg hf.ne]; exact he)

/-! ## The line of an error -/

theorem eachLine_bad {l : Bytes} (hl : Jiter.utf8Valid l = true) (ht : trim l ≠ []) (hr : S.read (trim l) = none) (rest : List Bytes) :
    ∀ (ls : List Bytes) (n : Nat) (ys : List (Value ν)), (∀ x ∈ ls, Jiter.utf8Valid x = true) → Each (Turns S a) (inked ls) ys →
      eachLine S a n (ls ++ l :: rest) = (printed S a ys, some (.line (n + ls.length + 2)))
  | [], n, ys, _, h => by
    rw [each_nil h, List.nil_append]
    unfold eachLine one
    rw [if_neg (by rw [hl]; nofun), if_neg ht, hr]
    rfl
  | x :: ls, n, ys, hu, h => by
    rw [inked_cons] at h
    rw [List.cons_append]
    unfold eachLine
    rw [if_neg (by rw [hu x (by simp)]; nofun)]
    have hlen : n + (x :: ls).length + 2 = n + 1 + ls.length + 2 := by rw [List.length_cons]; omega
    rw [hlen]
    split at h
    · rename_i hx
      rw [if_pos hx]
      exact eachLine_bad hl ht hr rest ls _ ys (fun z hz => hu z (by simp [hz])) h
    · rename_i hx
      rw [if_neg hx]
      rcases ys with _ | ⟨y, ys⟩
      · exact h.elim
      · rw [one_ok h.1]
        simp only
        rw [eachLine_bad hl ht hr rest ls _ ys (fun z hz => hu z (by simp [hz])) h.2]
        simp [printed]

theorem joined_cons (l : Bytes) {ls : List Bytes} (h : ls ≠ []) : joined (l :: ls) = l ++ 10 :: joined ls := by
  cases ls with
  | nil => exact absurd rfl h
  | cons _ _ => rfl

/-- The lines, with or without the carriage returns. -/
theorem lines_joined {l : Bytes} (hl : trim l ≠ []) (hn : 10 ∉ l) : ∀ (ls post : List Bytes), (∀ x ∈ ls, 10 ∉ x) →
    ∃ l' rest, trim l' = trim l ∧ linesFrom [] (joined (ls ++ l :: post)) = ls.map chomp ++ l' :: rest
  | [], [], _ => by
    refine ⟨l, [], rfl, ?_⟩
    have := lines_append l [] [] hn
    rw [List.append_nil, List.nil_append] at this
    show linesFrom [] l = [l]
    rw [this, linesFrom, if_neg (by rintro rfl; exact hl rfl)]
  | [], p :: post, _ => by
    refine ⟨chomp l, linesFrom [] (joined (p :: post)), trim_chomp l, ?_⟩
    rw [List.nil_append, joined_cons l (by simp), lines_append _ _ _ hn, linesFrom, if_pos rfl]
    rfl
  | x :: ls, post, h => by
    obtain ⟨l', rest, h1, h2⟩ := lines_joined hl hn ls post fun z hz => h z (by simp [hz])
    refine ⟨l', rest, h1, ?_⟩
    rw [List.cons_append, joined_cons x (by simp), lines_append _ _ _ (h x (by simp)), linesFrom, if_pos rfl, h2]
    rfl

theorem inked_chomp (ls : List Bytes) : inked (ls.map chomp) = inked ls := by
  unfold inked
  rw [List.map_map]
  congr 2
  funext l
  exact trim_chomp l

theorem runs_turns (hS : S.Real) {ls : List Bytes} {ys : List (Value ν)} (h : Runs (Becomes S a) ls ys) : Each (Turns S a) (inked ls) ys := by
  induction h with
  | nil => trivial
  | blank l ls ys hl _ ih =>
    rw [inked_cons, if_pos (trim_margin_only hl)]
    exact ih
  | doc p v q ls y ys hp hq hv _ ih =>
    obtain ⟨x, hx, _⟩ := id hv
    have hf := stands_framed hx
    rw [inked_cons, trim_margin hp hf hq, if_neg hf.ne]
    exact ⟨turns_bare hS hv, ih⟩

theorem inked_joined : ∀ (ls : List Bytes), (∀ l ∈ ls, 10 ∉ l) → inked (linesFrom [] (joined ls)) = inked ls
  | [], _ => rfl
  | [l], h => by
    have := lines_append l [] [] (h l (by simp))
    rw [List.append_nil, List.nil_append] at this
    show inked (linesFrom [] l) = _
    rw [this, linesFrom]
    split
    · rename_i e
      rw [e]
      rfl
    · rfl
  | l :: l' :: ls, h => by
    rw [joined_cons l (by simp), lines_append _ _ _ (h l (by simp)), linesFrom, if_pos rfl, inked_cons, inked_cons, List.nil_append, trim_chomp,
      inked_joined (l' :: ls) fun x hx => h x (List.mem_cons_of_mem _ hx)]

/-- The converse of `C86_sound` for lines: if each line is blank or has one document, with white space of Unicode around it, and the first line is not
blank (or the name of the file ends in `.jsonl`), then the documents are converted, and the results are printed in the same order. -/
theorem C86_runs (hS : S.Real) (ls : List Bytes) (ys : List (Value ν)) (hn : ∀ l ∈ ls, 10 ∉ l) (hu : Jiter.utf8Valid (joined ls) = true)
    (h : Runs (Becomes S a) ls ys) (hf : a.jsonl = true ∨ ∃ l more, ls = l :: more ∧ ¬ Margin l) : main S a (joined ls) = (printed S a ys, none) := by
  have he := runs_turns hS h
  rw [← inked_joined ls hn] at he
  unfold main
  by_cases hj : a.jsonl = true
  · rw [if_pos hj]
    exact jsonl_ok hu (by rw [if_pos (show trim [] = [] from rfl)]; exact he)
  · rw [if_neg hj]
    obtain ⟨l, more, rfl, hm⟩ := hf.resolve_left hj
    obtain ⟨u1, u2⟩ := utf8_cut hu
    have ht : trim (cutLine (joined (l :: more))).1 = trim l := by
      cases more with
      | nil =>
        have := cutLine_append l (r := []) (hn l (by simp))
        rw [List.append_nil] at this
        show trim (cutLine l).1 = _
        rw [this]
        simp [cutLine]
      | cons m more =>
        rw [joined_cons l (by simp), cutLine_append _ (hn l (by simp))]
        exact trim_snoc (by decide) l
    have htl : trim l ≠ [] := by
      intro e
      obtain ⟨p, q, hp, hq, e'⟩ := trim_parts l
      rw [e, List.nil_append] at e'
      exact hm (e' ▸ margin_append hp hq)
    rw [inked_cut, ht, if_neg htl] at he
    rcases ys with _ | ⟨y, ys⟩
    · exact he.elim
    obtain ⟨x, hx, _⟩ := id he.1
    revert u1 u2 ht he
    rcases cutLine (joined (l :: more)) with ⟨first, rest⟩
    simp only
    intro u1 u2 ht he
    rw [if_neg (by rw [u1]; nofun), ht, if_neg htl, if_pos (by rw [hx]; rfl)]
    exact jsonl_ok u2 (by rw [ht, if_neg htl]; exact he)

/-- **C86**, a line that is no document, behind lines that are blank or have a document each: the documents of these lines are converted, and the error names the
line. The number of the line is wrong by one if the name of the file ends in `.jsonl`. -/
theorem C86_line_number (hS : S.Real) (pre post : List Bytes) (l : Bytes) (ys : List (Value ν)) (hp : ∀ x ∈ pre, 10 ∉ x) (hn : 10 ∉ l)
    (hu : Jiter.utf8Valid (joined (pre ++ l :: post)) = true) (h : Runs (Becomes S a) pre ys)
    (hl : ∃ p b q, Margin p ∧ Framed b ∧ Margin q ∧ l = p ++ (b ++ q) ∧ S.read b = none)
    (hj : a.jsonl = true ∨ ∃ x more, pre = x :: more ∧ ¬ Margin x) :
    main S a (joined (pre ++ l :: post)) = (printed S a ys, some (.line (pre.length + (if a.jsonl then 2 else 1)))) := by
  replace h := runs_turns hS h
  obtain ⟨ht, hr⟩ : trim l ≠ [] ∧ S.read (trim l) = none := by
    obtain ⟨p, b, q, hp, hb, hq, e, hr⟩ := hl
    rw [e, trim_margin hp hb hq]
    exact ⟨hb.ne, hr⟩
  replace hj : a.jsonl = true ∨ ∃ x more, pre = x :: more ∧ trim x ≠ [] := hj.imp id fun ⟨x, more, e, hm⟩ => ⟨x, more, e, fun e' => by
    obtain ⟨p, q, hp, hq, e2⟩ := trim_parts x
    rw [e', List.nil_append] at e2
    exact hm (e2 ▸ margin_append hp hq)⟩
  have bad : ∀ (pre : List Bytes) (ys : List (Value ν)), (∀ x ∈ pre, 10 ∉ x) → Jiter.utf8Valid (joined (pre ++ l :: post)) = true →
      Each (Turns S a) (inked pre) ys → eachLine S a 0 (linesFrom [] (joined (pre ++ l :: post))) = (printed S a ys, some (.line (pre.length + 2))) := by
    intro pre ys hp hu h
    obtain ⟨l', rest, h1, h2⟩ := lines_joined ht hn pre post hp
    have hl := lines_utf8 (joined (pre ++ l :: post)) [] hu
    rw [h2] at hl ⊢
    have := eachLine_bad (S := S) (a := a) (hl l' (by simp)) (by rw [h1]; exact ht) (by rw [h1]; exact hr) rest (pre.map chomp) 0 ys
      (fun x hx => hl x (List.mem_append_left _ hx)) (by rw [inked_chomp]; exact h)
    rw [this, List.length_map, Nat.zero_add]
  unfold main
  by_cases hjs : a.jsonl = true
  · rw [if_pos hjs, if_pos hjs]
    unfold processJsonl
    rw [if_pos (show trim [] = [] from rfl)]
    exact bad pre ys hp hu h
  · rw [if_neg hjs, if_neg hjs]
    obtain ⟨x, more, rfl, hx⟩ := hj.resolve_left hjs
    have hc : cutLine (joined (x :: more ++ l :: post)) = (x ++ [10], joined (more ++ l :: post)) := by
      rw [List.cons_append, joined_cons x (by simp), cutLine_append _ (hp x (by simp))]
      rfl
    obtain ⟨u1, u2⟩ := utf8_cut hu
    rw [hc] at u1 u2 ⊢
    simp only at u1 u2 ⊢
    rw [inked_cons, if_neg hx] at h
    rcases ys with _ | ⟨y, ys⟩
    · exact h.elim
    obtain ⟨x', hx', _⟩ := id h.1
    have htr : trim (x ++ [10]) = trim x := trim_snoc (by decide) x
    rw [if_neg (by rw [u1]; nofun), htr, if_neg hx, if_pos (by rw [hx']; rfl)]
    unfold processJsonl
    rw [htr, if_neg hx, one_ok h.1]
    simp only
    rw [bad more ys (fun z hz => hp z (by simp [hz])) u2 h.2]
    simp [printed]

/-! ## The streaming converters -/

theorem each_zip {α β γ : Type} {R : α → β → Prop} {Q : γ → β → Prop} (f : α → γ) : ∀ {l : List α} {l' : List β}, Each R l l' → (∀ a ∈ l, ∀ b, R a b → Q (f a) b) →
    Each Q (l.map f) l'
  | [], [], _, _ => trivial
  | a :: _, b :: _, ⟨h1, h2⟩, h => ⟨h a (by simp) b h1, each_zip f h2 fun x hx => h x (by simp [hx])⟩

theorem json_spaces : ∀ {ds : Docs} {tail : Bytes}, Docs.Json ds tail → (∀ d ∈ ds, Spaces d.1) ∧ Spaces tail
  | [], _, h => ⟨nofun, h⟩
  | (w, v) :: ds, tail, h => by
    obtain ⟨h1, _, _, h2⟩ := h
    obtain ⟨h3, h4⟩ := json_spaces h2
    refine ⟨fun d hd => ?_, h4⟩
    rcases List.mem_cons.1 hd with rfl | hd
    · exact h1
    · exact h3 d hd

/-- **C86, partial**, the benchmark's program and `convert_normal_to_ddb` on the same input, objects on lines of their own: if `convert_normal_to_ddb`
returns `Ok`, then the program ends without an error, both have written one document for each object, and what the streaming converter has written
stands for the value that the program prints. The conditions are those of C85 and `C86_lines_partial`; the full statement is without them. -/
theorem C86_to_ddb_partial (hS : S.Real) (turns F : Nat) (reader : Reader) (d : Dest) (rb cb : Bytes) (pretty unbuffered : Bool) (ds : Docs) (tail : Bytes)
    (hu : Scan.Usable F (.new reader rb)) (hcl : reader.Clean) (hr : reader.pending = Docs.text ds tail) (hj : Docs.Json ds tail) (ho : Objects ds)
    (hk : ∀ x ∈ ds, x.2.Keys Usual) (ha : ∀ x ∈ ds, Atoms Short x.2) (hn : ∀ x ∈ ds, Atoms (Canon S.toNumbers) x.2)
    (hx : ∀ d ∈ ds, (∃ x, Stands S.toNumbers d.2 x) ∧ levels d.2 ≤ 127) (hl : OnLines ds)
    (hf : a.jsonl = true ∨ ∃ w v more, ds = (w, v) :: more ∧ 10 ∉ w) (hto : a.toDdb = true)
    (h : (convertNormalToDdb turns F reader d rb cb pretty unbuffered (!a.withoutItem)).2 = .ok) :
    ∃ us ys, (convertNormalToDdb turns F reader d rb cb pretty unbuffered (!a.withoutItem)).1.d.w.out = d.w.out ++ lines us ∧
      main S a (Docs.text ds tail) = (printed S a ys, none) ∧ Each (Stands S.toNumbers) us ys ∧ us.length = ds.length := by
  obtain ⟨f, h1, h2⟩ := C85_to_ddb_partial turns F reader d rb cb pretty unbuffered (!a.withoutItem) ds tail hu hcl hr hj ho hk ha hn h
  have hex : ∀ d ∈ ds, ∃ y, Becomes S a d.2 y ∧ Stands S.toNumbers (f d.2) y := by
    intro d hd
    obtain ⟨⟨x, hx⟩, hv⟩ := hx d hd
    obtain ⟨y, h3, h4⟩ := h2 d hd x hx
    exact ⟨y, ⟨x, hx, hv, by unfold Args.conv; rw [if_pos hto]; exact h3⟩, h4⟩
  obtain ⟨ys, hys⟩ := Each.choose hex
  refine ⟨ds.map fun x => f x.2, ys, h1, ?_, ?_, List.length_map ..⟩
  · exact C86_lines_partial hS ds tail ys (json_spaces hj).1 (json_spaces hj).2 hl (hys.imp fun _ _ _ h => h.1) hf
  · exact each_zip (fun x : Bytes × Val => f x.2) hys fun _ _ _ h => h.2

/-- **C86, partial**, the same with `convert_ddb_to_normal`. -/
theorem C86_from_ddb_partial (hS : S.Real) (turns F : Nat) (reader : Reader) (d : Dest) (rb cb : Bytes) (pretty unbuffered : Bool) (D : DDocs) (tail : Bytes)
    (hu : Scan.Usable F (.new reader rb)) (hr : reader.pending = Docs.text D.json tail) (hj : Docs.Json D.json tail)
    (hk : ∀ x ∈ D, x.2.members.Names (· ≠ Scan.nameArray)) (ho : ∀ x ∈ D, x.2.members.Orderly) (hw : ∀ x ∈ D, x.2.Reads true)
    (hnum : ∀ x ∈ D, x.2.members.Numbers (Readable S.toNumbers)) (hi : ∀ x ∈ D, NoItem S.toNumbers x.2)
    (hx : ∀ d ∈ D, (∃ x, Stands S.toNumbers d.2.json x) ∧ levels d.2.json ≤ 127) (hl : OnLines D.json)
    (hf : a.jsonl = true ∨ ∃ w v more, D.json = (w, v) :: more ∧ 10 ∉ w) (hto : a.toDdb = false)
    (h : (convertDdbToNormal turns F reader d rb cb pretty unbuffered true).2 = .ok) :
    ∃ us ys, (convertDdbToNormal turns F reader d rb cb pretty unbuffered true).1.d.w.out = d.w.out ++ lines us ∧
      main S a (Docs.text D.json tail) = (printed S a ys, none) ∧ Each (Stands S.toNumbers) us ys ∧ us.length = D.length := by
  obtain ⟨f, h1, h2⟩ := C85_from_ddb_partial turns F reader d rb cb pretty unbuffered D tail hu hr hj hk ho hw hnum hi h
  have hex : ∀ d ∈ D, ∃ y, Becomes S a d.2.json y ∧ Stands S.toNumbers (f d.2) y := by
    intro d hd
    obtain ⟨⟨x, hx⟩, hv⟩ := hx d hd
    obtain ⟨y, h3, h4⟩ := h2 d hd x hx
    exact ⟨y, ⟨x, hx, hv, by unfold Args.conv; rw [if_neg (by rw [hto]; nofun)]; exact h3⟩, h4⟩
  obtain ⟨ys, hys⟩ := Each.choose hex
  refine ⟨D.map fun x => f x.2, ys, h1, ?_, ?_, List.length_map ..⟩
  · exact C86_lines_partial hS D.json tail ys (json_spaces hj).1 (json_spaces hj).2 hl
      (Each.map (R := fun d => Becomes S a d.2) (fun x : Bytes × DDoc => (x.1, x.2.json)) (hys.imp fun _ _ _ h => h.1)) hf
  · exact each_zip (fun x : Bytes × DDoc => f x.2) hys fun _ _ _ h => h.2

/-! ## Examples -/

/-- `{"a":[1],"b":null}` and `{}` on two lines. -/
def exLines : Docs := [([], exSpec), ([10], .obj [] .nil)]

theorem exSpec_stands : Stands exNumbers exSpec (.obj [([97], .arr [.num [49]]), ([98], .null)]) :=
  ⟨spaces_nil, [([97], .arr [.num [49]]), ([98], .null)], ⟨spaces_nil, spaces_nil, spaces_nil, spaces_nil, [97], .arr [.num [49]], [([98], .null)],
    name_str _ _ (by decide), ⟨spaces_nil, [.num [49]], ⟨spaces_nil, spaces_nil, .num [49], [], .number [49] Scan.number_one rfl, rfl, rfl⟩, rfl⟩,
    ⟨spaces_nil, spaces_nil, spaces_nil, spaces_nil, [98], .null, [], name_str _ _ (by decide), .null, rfl, rfl⟩, rfl⟩, rfl⟩

theorem exEmpty_stands : Stands exNumbers (.obj [] .nil) (.obj []) := ⟨spaces_nil, [], rfl, rfl⟩

theorem spaces_line : Spaces [10] := by intro c hc; simp at hc; subst hc; unfold Space; decide

/-- The arguments of the examples. -/
def exArgs (toDdb jsonl : Bool) : Args := ⟨toDdb, false, false, jsonl⟩

/-- The hypotheses of `C86_lines_partial`, for these two documents. -/
example : (exSerde exNumbers).Real ∧ (∀ d ∈ exLines, Spaces d.1) ∧ OnLines exLines ∧
    (∃ ys, Each (fun d => Becomes (exSerde exNumbers) (exArgs true false) d.2) exLines ys) ∧ ∃ w v more, exLines = (w, v) :: more ∧ 10 ∉ w := by
  refine ⟨exSerde_real _, ?_, ⟨by decide +kernel, by simp, by decide +kernel, nofun, trivial⟩,
    ⟨[_, _], ⟨_, exSpec_stands, by decide +kernel, rfl⟩, ⟨_, exEmpty_stands, by decide +kernel, rfl⟩, trivial⟩, ⟨_, _, _, rfl, by simp⟩⟩
  intro d hd
  simp only [exLines, List.mem_cons, List.not_mem_nil, or_false] at hd
  rcases hd with rfl | rfl
  · exact spaces_nil
  · exact spaces_line

/-- The hypotheses of `C86_single`: `{`, a newline, `}`. -/
example : Becomes (exSerde exNumbers) (exArgs true false) (.obj [10] .nil) (.obj [(tItem, .obj [])]) ∧ (Val.obj [10] .nil).text = [123, 10, 125] :=
  ⟨⟨.obj [], ⟨spaces_line, [], rfl, rfl⟩, by decide +kernel, rfl⟩, by decide +kernel⟩

/-- The hypotheses of `C86_refused`: a blank line and two documents; one that goes over two lines, and another; two on one line. -/
example : Stands exNumbers (.obj [] .nil) (.obj []) ∧ Stands exNumbers (.obj [10] .nil) (.obj []) ∧ (Val.obj [] .nil).Clear [32, 123, 125] ∧
    (10 ∈ ([10] : Bytes) ∧ 10 ∈ (Val.obj [10] .nil).text ∧ 10 ∉ ([32] : Bytes)) :=
  ⟨exEmpty_stands, ⟨spaces_line, [], rfl, rfl⟩, trivial, by decide, by decide +kernel, by decide⟩

/-- The hypotheses of `C86_runs` and `C86_line_number`: `{}` before a no-break space, a blank line, and a line on which is only `x`. -/
example : Runs (Becomes (exSerde exNumbers) (exArgs true false)) [[123, 125, 0xC2, 0xA0], []] [.obj [(tItem, .obj [])]] ∧
    Jiter.utf8Valid (joined ([[123, 125, 0xC2, 0xA0], []] ++ [120] :: [])) = true ∧ ¬ Margin [123, 125, 0xC2, 0xA0] ∧
    ∃ p b q, Margin p ∧ Framed b ∧ Margin q ∧ [120] = p ++ (b ++ q) ∧ (exSerde exNumbers).read b = none := by
  refine ⟨?_, by decide +kernel, fun h => margin_no_ink h 123 (by simp) (by simp [Ink]), [], [120], [], margin_nil,
    ⟨⟨120, [], rfl, by simp [Ink]⟩, [], 120, rfl, by simp [Ink]⟩, margin_nil, rfl, ?_⟩
  · exact .doc [] (.obj [] .nil) [0xC2, 0xA0] [[]] _ [] margin_nil (margin_code 0xA0 (by unfold UniWhite; decide) (by decide +kernel))
      ⟨_, exEmpty_stands, by decide +kernel, rfl⟩ (.blank _ _ _ margin_nil .nil)
  · cases hr : (exSerde exNumbers).read [120] with
    | none => rfl
    | some y =>
      obtain ⟨u, v, u', hu, _, e, hv⟩ := (exSerde_real exNumbers).sound _ _ hr
      exfalso
      rcases u with _ | ⟨c, u⟩
      · rw [List.nil_append] at e
        cases v with
        | atom tok =>
          cases (show AtomGives _ _ tok y from hv) with
          | number _ hn _ =>
            obtain ⟨c, t, rfl, hc⟩ := number_first hn
            injection e with e _
            subst e
            simp at hc
          | _ => simp [Val.text] at e
        | _ => simp [Val.text] at e
      · injection e with e _
        subst e
        rcases hu 120 (by simp) with h | h | h | h <;> cases h

/-- The hypotheses of `C86_to_ddb_partial`, for the two documents on two lines. -/
example : Scan.Usable 200 (.new (whole (Docs.text exLines [])) (List.replicate 40 0)) ∧ (whole (Docs.text exLines [])).Clean ∧
    (whole (Docs.text exLines [])).pending = Docs.text exLines [] ∧ Docs.Json exLines [] ∧ Objects exLines ∧ (∀ d ∈ exLines, d.2.Keys Usual) ∧
    (∀ d ∈ exLines, Atoms Short d.2) ∧ (∀ d ∈ exLines, Atoms (Canon exNumbers) d.2) ∧
    (∀ d ∈ exLines, (∃ x, Stands exNumbers d.2 x) ∧ levels d.2 ≤ 127) ∧
    (convertNormalToDdb 40 200 (whole (Docs.text exLines [])) ⟨⟨[], []⟩, []⟩ (List.replicate 40 0) (List.replicate 200 0) false false true).2 = .ok := by
  have hc : ∀ tok, Canon exNumbers tok := fun tok _ n h => by
    have : some tok = some n := h
    injection this with this
    exact this.symm
  refine ⟨Scan.usable_new _ _ _ (by decide) (by decide +kernel), by simp [whole, exLines, exSpec, Docs.text, Val.text, Reader.Clean], by decide +kernel,
    Docs.Meets.json (show Docs.Meets (Scan.rules Scan.wholeMode 20) exLines [] from ⟨spaces_nil, plainVal_ok _ (by decide +kernel), head_whole _ _ _, trivial, spaces_line,
      plainVal_ok _ (by decide +kernel), head_whole _ _ _, trivial, spaces_nil⟩), ?_, ?_, ?_, ?_, ?_, by decide +kernel⟩
  all_goals
    intro d hd
    simp only [exLines, List.mem_cons, List.not_mem_nil, or_false] at hd
  · rcases hd with rfl | rfl <;> exact ⟨_, _, rfl⟩
  · rcases hd with rfl | rfl <;> simp [exSpec, Val.Keys, Members.Keys, Items.Keys, Usual] <;> decide +kernel
  · rcases hd with rfl | rfl
    · simp [exSpec, Atoms, AtomsMembers, AtomsItems, Short]
    · trivial
  · rcases hd with rfl | rfl
    · exact ⟨⟨hc _, trivial⟩, hc _, trivial⟩
    · trivial
  · rcases hd with rfl | rfl
    · exact ⟨⟨_, exSpec_stands⟩, by decide +kernel⟩
    · exact ⟨⟨_, exEmpty_stands⟩, by decide +kernel⟩

/-- The hypotheses of `C86_from_ddb_partial` that are not among those of `C85_from_ddb_partial`: an item on one line. -/
example : (∃ x, Stands exNumbers (DDoc.item .no [] (.cons [] [101] [] [] (.string .no true [120]) [] .nil)).json x) ∧
    levels (DDoc.item .no [] (.cons [] [101] [] [] (.string .no true [120]) [] .nil)).json ≤ 127 ∧
    OnLines (DDocs.json [([], .item .no [] (.cons [] [101] [] [] (.string .no true [120]) [] .nil))]) :=
  ⟨⟨_, spaces_nil, _, ⟨spaces_nil, spaces_nil, spaces_nil, spaces_nil, tItem, _, [], name_str _ _ (by decide),
      ⟨spaces_nil, _, ⟨spaces_nil, spaces_nil, spaces_nil, spaces_nil, [101], _, [], name_str _ _ (by decide),
        ⟨spaces_nil, _, ⟨spaces_nil, spaces_nil, spaces_nil, spaces_nil, [66], _, [], name_str _ _ (by decide),
          .string [120] [120] (name_str _ _ (by decide)), rfl, rfl⟩, rfl⟩, rfl, rfl⟩, rfl⟩, rfl, rfl⟩, rfl⟩,
   by decide +kernel, by decide +kernel, nofun, trivial⟩

end Verif.Bench
