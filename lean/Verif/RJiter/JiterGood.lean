import Verif.RJiter.JiterLemmas

/-!
# Every modelled jiter function is good on the documents it accepts
-/

namespace Verif.RJiter

open Buffer RJ

namespace Jiter

/-- On every prefix that is too short, the function does not move, or it moves to the end of the prefix. -/
def Stay {α : Type} (f : JFn α) (r : Bytes) (need : Nat) : Prop :=
  ∀ k, k < need → (f (r.take k)).1 = 0 ∨ k ≤ (f (r.take k)).1

/-! ### Arrays -/

theorem knownArray_nil : knownArray [] = (1, .error ⟨.json .eofWhileParsingList, 1⟩) := rfl

theorem knownArray_ws (x : Byte) {ws : Bytes} (h : Ws ws) :
    knownArray (x :: ws) = (1 + ws.length, .error ⟨.json .eofWhileParsingList, 1 + ws.length⟩) := by
  simp only [knownArray, List.drop_succ_cons, List.drop_zero, wsLen_all h, jerr]
  rw [List.drop_eq_nil_of_le (by simp; omega)]

theorem knownArray_tok (x : Byte) {ws : Bytes} (h : Ws ws) {c : Byte} (hc : isWs c = false) (t : Bytes) :
    knownArray (x :: (ws ++ c :: t)) =
      if c = 93 then (1 + ws.length + 1, .ok none) else (1 + ws.length, .ok (some c)) := by
  simp only [knownArray, List.drop_succ_cons, List.drop_zero, wsLen_cons h hc]
  rw [Nat.add_comm 1, List.drop_succ_cons, List.drop_left]

theorem knownArray_good (x : Byte) {ws : Bytes} (h : Ws ws) {c : Byte} (hc : isWs c = false) (t : Bytes) :
    Good knownArray false (x :: (ws ++ c :: t)) (if c = 93 then 1 + ws.length + 1 else 1 + ws.length)
      (if c = 93 then none else some c) (1 + ws.length + 1) := by
  refine ⟨by simp; omega, by split <;> omega, by simp, ?_, ?_⟩
  · intro k hk hkl
    obtain ⟨k, rfl⟩ : ∃ j, k = j + 1 := ⟨k - 1, by omega⟩
    rw [List.take_succ_cons]
    rcases take_ws ws c t k with ⟨h1, e⟩ | ⟨h1, e⟩
    · omega
    · rw [e, knownArray_tok x h hc]; split <;> rfl
  · intro k hk
    cases k with
    | zero => exact rfl
    | succ k =>
      rw [List.take_succ_cons]
      rcases take_ws ws c t k with ⟨h1, e⟩ | ⟨h1, e⟩
      · rw [e, knownArray_ws x (Ws.take h k)]; exact rfl
      · omega

theorem knownArray_ok {d : Bytes} {n : Nat} {v : Option Byte} (hd : knownArray d = (n, .ok v)) :
    ∃ x ws c t, d = x :: (ws ++ c :: t) ∧ Ws ws ∧ isWs c = false := by
  cases d with
  | nil => rw [knownArray_nil] at hd; simp at hd
  | cons x d =>
    rcases ws_split d with hw | ⟨ws, c, t, rfl, hw, hc⟩
    · rw [knownArray_ws x hw] at hd; simp at hd
    · exact ⟨x, ws, c, t, rfl, hw, hc⟩

theorem arrayStep_ws {ws : Bytes} (h : Ws ws) :
    arrayStep ws = (ws.length, .error ⟨.json .eofWhileParsingList, ws.length⟩) := by
  simp only [arrayStep, wsLen_all h, List.drop_length]; rfl

theorem arrayStep_tok {ws : Bytes} (h : Ws ws) {c : Byte} (hc : isWs c = false) (t : Bytes) :
    arrayStep (ws ++ c :: t) =
      if c = 44 then
        match t.drop (wsLen t) with
        | [] => jerr (ws.length + 1 + wsLen t) .eofWhileParsingValue (ws.length + 1 + wsLen t)
        | c2 :: _ => if c2 = 93 then jerr (ws.length + 1 + wsLen t) .trailingComma (ws.length + 1 + wsLen t)
            else (ws.length + 1 + wsLen t, .ok (some c2))
      else if c = 93 then (ws.length + 1, .ok none)
      else jerr ws.length .expectedListCommaOrEnd ws.length := by
  simp only [arrayStep, wsLen_cons h hc, List.drop_left]
  have : (ws ++ c :: t).drop (ws.length + 1 + wsLen t) = t.drop (wsLen t) := by
    rw [show ws ++ c :: t = (ws ++ [c]) ++ t by simp, show ws.length + 1 + wsLen t = (ws ++ [c]).length + wsLen t by simp,
      ← List.drop_drop, List.drop_left]
  rw [this]
  rfl

theorem arrayStep_skips : Skips arrayStep arrayStep := by
  constructor
  · intro ws h; exact ⟨_, _, arrayStep_ws h, rfl, rfl⟩
  · intro ws c t h hc
    rw [arrayStep_tok h hc]
    have h0 := arrayStep_tok Ws.nil hc t
    simp only [List.nil_append, List.length_nil, Nat.zero_add] at h0
    rw [h0]
    by_cases h1 : c = 44
    · simp only [h1, if_true]
      cases hd : t.drop (wsLen t) with
      | nil => simp [jerr]; omega
      | cons c2 t2 =>
        simp only
        by_cases h2 : c2 = 93
        · simp [h2, jerr]; omega
        · simp [h2]; omega
    · by_cases h2 : c = 93
      · simp [h2]
      · simp [h1, h2, jerr]

/-- `]`. -/
theorem arrayStep_good_end (t : Bytes) : Good arrayStep false (93 :: t) 1 none 1 := by
  refine ⟨by simp, Nat.le_refl _, by simp, ?_, ?_⟩
  · intro k hk _
    obtain ⟨k, rfl⟩ : ∃ j, k = j + 1 := ⟨k - 1, by omega⟩
    rw [List.take_succ_cons]
    have := arrayStep_tok Ws.nil (c := 93) (by decide) (t.take k)
    simpa using this
  · intro k hk
    obtain rfl : k = 0 := by omega
    exact rfl

/-- `,` and the first byte of the next value. -/
theorem arrayStep_good_comma {ws : Bytes} (h : Ws ws) {c : Byte} (hc : isWs c = false) (h93 : c ≠ 93) (t : Bytes) :
    Good arrayStep false (44 :: (ws ++ c :: t)) (1 + ws.length) (some c) (1 + ws.length + 1) := by
  have h0 : ∀ t, arrayStep (44 :: t) = match t.drop (wsLen t) with
        | [] => jerr (1 + wsLen t) .eofWhileParsingValue (1 + wsLen t)
        | c2 :: _ => if c2 = 93 then jerr (1 + wsLen t) .trailingComma (1 + wsLen t)
            else (1 + wsLen t, .ok (some c2)) := by
    intro t
    have := arrayStep_tok Ws.nil (c := 44) (by decide) t
    simpa using this
  refine ⟨by simp; omega, by omega, by simp, ?_, ?_⟩
  · intro k hk _
    obtain ⟨k, rfl⟩ : ∃ j, k = j + 1 := ⟨k - 1, by omega⟩
    rw [List.take_succ_cons]
    rcases take_ws ws c t k with ⟨h1, e⟩ | ⟨h1, e⟩
    · omega
    · rw [e, h0, wsLen_cons h hc, List.drop_left]
      simp [h93]
  · intro k hk
    cases k with
    | zero => exact rfl
    | succ k =>
      rw [List.take_succ_cons]
      rcases take_ws ws c t k with ⟨h1, e⟩ | ⟨h1, e⟩
      · rw [e, h0, wsLen_all (Ws.take h k), List.drop_length]; exact rfl
      · omega

theorem arrayStep_ok {d : Bytes} {n : Nat} {v : Option Byte} (hd : arrayStep d = (n, .ok v)) :
    (∃ ws t, d = ws ++ 93 :: t ∧ Ws ws ∧ v = none ∧ n = ws.length + 1) ∨
    (∃ ws ws2 c t, d = ws ++ 44 :: (ws2 ++ c :: t) ∧ Ws ws ∧ Ws ws2 ∧ isWs c = false ∧ c ≠ 93 ∧ v = some c ∧
      n = ws.length + (1 + ws2.length)) := by
  rcases ws_split d with hw | ⟨ws, c, t, rfl, hw, hc⟩
  · rw [arrayStep_ws hw] at hd; simp at hd
  · rw [arrayStep_tok hw hc] at hd
    by_cases h1 : c = 44
    · right
      rw [if_pos h1] at hd
      rcases ws_split t with hw2 | ⟨ws2, c2, t2, rfl, hw2, hc2⟩
      · rw [wsLen_all hw2, List.drop_length] at hd; simp [jerr] at hd
      · rw [wsLen_cons hw2 hc2, List.drop_left] at hd
        simp only at hd
        by_cases h2 : c2 = 93
        · rw [if_pos h2] at hd; simp [jerr] at hd
        · rw [if_neg h2] at hd
          simp only [Prod.mk.injEq, Except.ok.injEq] at hd
          exact ⟨ws, ws2, c2, t2, by rw [h1], hw, hw2, hc2, h2, hd.2.symm, by omega⟩
    · rw [if_neg h1] at hd
      by_cases h2 : c = 93
      · rw [if_pos h2] at hd
        simp only [Prod.mk.injEq, Except.ok.injEq] at hd
        left; exact ⟨ws, t, by rw [h2], hw, hd.2.symm, by omega⟩
      · rw [if_neg h2] at hd; simp [jerr] at hd

/-! ### Functions that peek first -/

/-- `f` peeks, checks the byte with `sel`, and continues with the function `sel` gives. -/
structure Next {α : Type} (f : JFn α) (sel : Byte → Option (JFn α)) : Prop where
  ws : ∀ d w e, peek d = (w, .error e) → f d = (w, .error e)
  bad : ∀ d w c, peek d = (w, .ok c) → sel c = none → f d = (w, .error ⟨.wrongType, w⟩)
  good : ∀ d w c g, peek d = (w, .ok c) → sel c = some g →
    f d = (w + (g (d.drop w)).1, match (g (d.drop w)).2 with
      | .ok v => .ok v
      | .error e => .error ⟨e.type, w + e.index⟩)

theorem Next.skips {α : Type} {f : JFn α} {sel : Byte → Option (JFn α)} (h : Next f sel) : Skips f f := by
  have h0 : ∀ c t, isWs c = false → peek (c :: t) = (0, .ok c) := by
    intro c t hc
    have := peek_tok Ws.nil hc t
    simpa using this
  constructor
  · intro ws hw; exact ⟨_, _, h.ws _ _ _ (peek_ws hw), rfl, rfl⟩
  · intro ws c t hw hc
    cases hs : sel c with
    | none =>
      rw [h.bad _ _ _ (peek_tok hw hc t) hs, h.bad _ _ _ (h0 c t hc) hs]
      simp
    | some g =>
      rw [h.good _ _ _ _ (peek_tok hw hc t) hs, h.good _ _ _ _ (h0 c t hc) hs, List.drop_left]
      simp only [List.drop_zero, Nat.zero_add, true_and]
      cases (g (c :: t)).2 with
      | ok v => simp
      | error e => simp

/-- On the token itself, `f` is the function behind it. -/
theorem Next.good' {α : Type} {f : JFn α} {sel : Byte → Option (JFn α)} (h : Next f sel) {c : Byte} {t : Bytes}
    {g : JFn α} (hc : isWs c = false) (hs : sel c = some g) {n need : Nat} {v : α} {eager : Bool}
    (hg : Good g eager (c :: t) n v need) (hn : 0 < need) : Good f eager (c :: t) n v need := by
  have h0 : ∀ t, peek (c :: t) = (0, .ok c) := by
    intro t
    have := peek_tok Ws.nil hc t
    simpa using this
  refine ⟨hg.fits, hg.moved, hg.margin, ?_, ?_⟩
  · intro k hk hkl
    have h1 := hg.enough k hk hkl
    obtain ⟨k, rfl⟩ : ∃ j, k = j + 1 := ⟨k - 1, by omega⟩
    rw [List.take_succ_cons] at h1 ⊢
    rw [h.good _ _ _ _ (h0 _) hs]
    simp [h1]
  · intro k hk
    have h1 := hg.short k hk
    cases k with
    | zero =>
      rw [List.take_zero, h.ws [] 0 _ rfl]
      exact rfl
    | succ k =>
      rw [List.take_succ_cons] at h1 ⊢
      rw [h.good _ _ _ _ (h0 _) hs]
      rcases hgv : g (c :: t.take k) with ⟨m, r⟩
      rw [hgv] at h1
      cases r with
      | error e => simp only [List.drop_zero, hgv]; exact h1
      | ok w => simp only [List.drop_zero, hgv, Retry] at h1 ⊢; exact ⟨h1.1, by omega⟩

theorem Next.ok {α : Type} {f : JFn α} {sel : Byte → Option (JFn α)} (h : Next f sel) {d : Bytes} {n : Nat}
    {v : α} (hd : f d = (n, .ok v)) :
    ∃ ws c t g m, d = ws ++ c :: t ∧ Ws ws ∧ isWs c = false ∧ sel c = some g ∧ g (c :: t) = (m, .ok v) ∧
      n = ws.length + m := by
  rcases ws_split d with hw | ⟨ws, c, t, rfl, hw, hc⟩
  · rw [h.ws _ _ _ (peek_ws hw)] at hd; simp at hd
  · cases hs : sel c with
    | none => rw [h.bad _ _ _ (peek_tok hw hc t) hs] at hd; simp at hd
    | some g =>
      rw [h.good _ _ _ _ (peek_tok hw hc t) hs, List.drop_left] at hd
      rcases hg : g (c :: t) with ⟨m, r⟩
      rw [hg] at hd
      cases r with
      | error e => simp at hd
      | ok w =>
        simp only [Prod.mk.injEq, Except.ok.injEq] at hd
        exact ⟨ws, c, t, g, m, rfl, hw, hc, hs, by rw [hg, hd.2], hd.1.symm⟩

theorem nextArray_next : Next nextArray (fun c => if c = 91 then some knownArray else none) := by
  constructor
  · intro d w e h; simp only [nextArray, h]
  · intro d w c h hs
    have : c ≠ 91 := by intro hc; simp [hc] at hs
    simp only [nextArray, h, if_neg this]
  · intro d w c g h hs
    by_cases hc : c = 91
    · simp only [hc, if_true, Option.some.injEq] at hs
      subst hs
      simp only [nextArray, h, hc, if_true]
      rcases knownArray (d.drop w) with ⟨n, r⟩
      cases r <;> rfl
    · simp [hc] at hs

theorem nextNull_next : Next nextNull (fun c => if c = 110 then some knownNull else none) := by
  constructor
  · intro d w e h; simp only [nextNull, h]
  · intro d w c h hs
    have : c ≠ 110 := by intro hc; simp [hc] at hs
    simp only [nextNull, h, if_neg this]
  · intro d w c g h hs
    by_cases hc : c = 110
    · simp only [hc, if_true, Option.some.injEq] at hs
      subst hs
      simp only [nextNull, h, hc, if_true]
      rcases knownNull (d.drop w) with ⟨n, r⟩
      cases r <;> rfl
    · simp [hc] at hs

theorem nextBool_next : Next nextBool (fun c => if c = 116 ∨ c = 102 then some (knownBool c) else none) := by
  constructor
  · intro d w e h; simp only [nextBool, h]
  · intro d w c h hs
    have : ¬ (c = 116 ∨ c = 102) := by intro hc; simp [hc] at hs
    simp only [nextBool, h, knownBool, if_neg (fun hh => this (.inl hh)), if_neg (fun hh => this (.inr hh))]
    rfl
  · intro d w c g h hs
    by_cases hc : c = 116 ∨ c = 102
    · simp only [hc, if_true, Option.some.injEq] at hs
      subst hs
      simp only [nextBool, h]
      rcases knownBool c (d.drop w) with ⟨n, r⟩
      cases r <;> rfl
    · simp [hc] at hs

theorem nextString_next (known : JFn Bytes) :
    Next (nextString known) (fun c => if c = 34 then some known else none) := by
  constructor
  · intro d w e h; simp only [nextString, h]
  · intro d w c h hs
    have : c ≠ 34 := by intro hc; simp [hc] at hs
    simp only [nextString, h, if_neg this]
  · intro d w c g h hs
    by_cases hc : c = 34
    · simp only [hc, if_true, Option.some.injEq] at hs
      subst hs
      simp only [nextString, h, hc, if_true]
      rcases known (d.drop w) with ⟨n, r⟩
      cases r <;> rfl
    · simp [hc] at hs

theorem nextObject_next (known : JFn Bytes) :
    Next (nextObject known) (fun c => if c = 123 then some (knownObject known) else none) := by
  constructor
  · intro d w e h; simp only [nextObject, h]
  · intro d w c h hs
    have : c ≠ 123 := by intro hc; simp [hc] at hs
    simp only [nextObject, h, if_neg this]
  · intro d w c g h hs
    by_cases hc : c = 123
    · simp only [hc, if_true, Option.some.injEq] at hs
      subst hs
      simp only [nextObject, h, hc, if_true]
      rcases knownObject known (d.drop w) with ⟨n, r⟩
      cases r <;> rfl
    · simp [hc] at hs

theorem nextNumber_next :
    Next nextNumberBytes (fun c => if c = 45 ∨ isDigit c = true then some numberTok else none) := by
  constructor
  · intro d w e h; simp only [nextNumberBytes, h]
  · intro d w c h hs
    have : ¬ (c = 45 ∨ isDigit c = true) := by intro hc; simp [hc] at hs
    simp only [nextNumberBytes, h, if_neg this]
  · intro d w c g h hs
    by_cases hc : c = 45 ∨ isDigit c = true
    · simp only [hc, if_true, Option.some.injEq] at hs
      subst hs
      simp only [nextNumberBytes, h, hc, if_true, numberTok]
      cases numberEnd (d.drop w) with
      | ok n => rfl
      | error e => rfl
    · simp [hc] at hs

/-! ### Objects -/

theorem objectKey_prefix {known : JFn Bytes} (hk : PrefixFn known) {d : Bytes} {n : Nat} {v : Bytes}
    (h : objectKey known d = (n, .ok v)) :
    2 ≤ n ∧ n ≤ d.length ∧ (∀ k, n ≤ k → objectKey known (d.take k) = (n, .ok v)) ∧
    (∀ k, k < n → ∃ m e, objectKey known (d.take k) = (m, .error e) ∧ canRetry e.type = true ∧ (m = 0 ∨ k ≤ m)) := by
  simp only [objectKey] at h
  rcases hkd : known d with ⟨m, r⟩
  rw [hkd] at h
  cases r with
  | error e => simp at h
  | ok w =>
    obtain ⟨k1, k2, k3, k4⟩ := hk _ _ _ hkd
    simp only at h
    rcases ws_split (d.drop m) with hw | ⟨ws, c, t, hd, hw, hc⟩
    · rw [wsLen_all hw, ← List.drop_drop, List.drop_length] at h; simp [jerr] at h
    · have hdl : d.length = m + (ws.length + (t.length + 1)) := by
        have := congrArg List.length hd
        simp at this; omega
      rw [← List.drop_drop, hd, wsLen_cons hw hc, List.drop_left] at h
      simp only at h
      by_cases h58 : c = 58
      · rw [if_pos h58] at h
        simp only [Prod.mk.injEq, Except.ok.injEq] at h
        obtain ⟨rfl, rfl⟩ := h
        refine ⟨by omega, by omega, ?_, ?_⟩
        · intro k hkk
          simp only [objectKey, k3 k (by omega)]
          rw [← List.drop_drop, List.drop_take, hd]
          rcases take_ws ws c t (k - m) with ⟨h1, e⟩ | ⟨h1, e⟩
          · omega
          · rw [e, wsLen_cons hw hc, List.drop_left]
            simp only
            rw [if_pos h58]
        · intro k hkk
          by_cases hkm : k < m
          · obtain ⟨e, he, hr⟩ := k4 k hkm
            exact ⟨0, e, by simp only [objectKey, he], hr, .inl rfl⟩
          · simp only [objectKey, k3 k (by omega)]
            rw [← List.drop_drop, List.drop_take, hd]
            rcases take_ws ws c t (k - m) with ⟨h1, e⟩ | ⟨h1, e⟩
            · rw [e, wsLen_all (Ws.take hw _), List.drop_length]
              refine ⟨_, _, rfl, rfl, .inr ?_⟩
              simp; omega
            · omega
      · rw [if_neg h58] at h; simp [jerr] at h

theorem knownObject_ws (known : JFn Bytes) (x : Byte) {ws : Bytes} (h : Ws ws) :
    knownObject known (x :: ws) = (1 + ws.length, .error ⟨.json .eofWhileParsingObject, 1 + ws.length⟩) := by
  simp only [knownObject, List.drop_succ_cons, List.drop_zero, wsLen_all h, jerr]
  rw [List.drop_eq_nil_of_le (by simp; omega)]

theorem knownObject_tok (known : JFn Bytes) (x : Byte) {ws : Bytes} (h : Ws ws) {c : Byte} (hc : isWs c = false) (t : Bytes) :
    knownObject known (x :: (ws ++ c :: t)) =
      if c = 34 then
        match objectKey known (c :: t) with
        | (n, .error e) => (1 + ws.length + n, .error ⟨e.type, 1 + ws.length + e.index⟩)
        | (n, .ok k) => (1 + ws.length + n, .ok (some k))
      else if c = 125 then (1 + ws.length + 1, .ok none)
      else jerr (1 + ws.length) .keyMustBeAString (1 + ws.length) := by
  have hd : (x :: (ws ++ c :: t)).drop (1 + ws.length) = c :: t := by
    rw [Nat.add_comm 1, List.drop_succ_cons, List.drop_left]
  simp only [knownObject, List.drop_succ_cons, List.drop_zero, wsLen_cons h hc, keyAt]
  simp only [hd]
  rfl

/-- `}`. -/
theorem knownObject_good_end (known : JFn Bytes) (x : Byte) {ws : Bytes} (h : Ws ws) (t : Bytes) :
    Good (knownObject known) false (x :: (ws ++ 125 :: t)) (1 + ws.length + 1) none (1 + ws.length + 1) := by
  refine ⟨by simp; omega, by omega, by simp, ?_, ?_⟩
  · intro k hk hkl
    obtain ⟨k, rfl⟩ : ∃ j, k = j + 1 := ⟨k - 1, by omega⟩
    rw [List.take_succ_cons]
    rcases take_ws ws 125 t k with ⟨h1, e⟩ | ⟨h1, e⟩
    · omega
    · rw [e, knownObject_tok known x h (by decide)]; rfl
  · intro k hk
    cases k with
    | zero => exact rfl
    | succ k =>
      rw [List.take_succ_cons]
      rcases take_ws ws 125 t k with ⟨h1, e⟩ | ⟨h1, e⟩
      · rw [e, knownObject_ws known x (Ws.take h k)]; exact rfl
      · omega

/-- A first key. -/
theorem knownObject_good_key {known : JFn Bytes} (hk : PrefixFn known) (x : Byte) {ws : Bytes} (h : Ws ws)
    (t : Bytes) {n : Nat} {v : Bytes} (hn : objectKey known (34 :: t) = (n, .ok v)) :
    Good (knownObject known) false (x :: (ws ++ 34 :: t)) (1 + ws.length + n) (some v) (1 + ws.length + n) := by
  obtain ⟨o1, o2, o3, o4⟩ := objectKey_prefix hk hn
  simp only [List.length_cons] at o2
  refine ⟨by simp; omega, by omega, by simp, ?_, ?_⟩
  · intro k hkk hkl
    obtain ⟨k, rfl⟩ : ∃ j, k = j + 1 := ⟨k - 1, by omega⟩
    rw [List.take_succ_cons]
    rcases take_ws ws 34 t k with ⟨h1, e⟩ | ⟨h1, e⟩
    · omega
    · rw [e, knownObject_tok known x h (by decide), if_pos rfl]
      have := o3 (k - ws.length) (by omega)
      rw [show k - ws.length = (k - ws.length - 1) + 1 by omega, List.take_succ_cons] at this
      rw [this]
  · intro k hkk
    cases k with
    | zero => exact rfl
    | succ k =>
      rw [List.take_succ_cons]
      rcases take_ws ws 34 t k with ⟨h1, e⟩ | ⟨h1, e⟩
      · rw [e, knownObject_ws known x (Ws.take h k)]; exact rfl
      · rw [e, knownObject_tok known x h (by decide), if_pos rfl]
        obtain ⟨m, er, he, hr, _⟩ := o4 (k - ws.length) (by omega)
        rw [show k - ws.length = (k - ws.length - 1) + 1 by omega, List.take_succ_cons] at he
        rw [he]
        exact hr

theorem knownObject_ok {known : JFn Bytes} {d : Bytes} {n : Nat} {v : Option Bytes}
    (hd : knownObject known d = (n, .ok v)) :
    (∃ x ws t, d = x :: (ws ++ 125 :: t) ∧ Ws ws ∧ v = none ∧ n = 1 + ws.length + 1) ∨
    (∃ x ws t m k, d = x :: (ws ++ 34 :: t) ∧ Ws ws ∧ v = some k ∧ objectKey known (34 :: t) = (m, .ok k) ∧
      n = 1 + ws.length + m) := by
  cases d with
  | nil => simp [knownObject, jerr] at hd
  | cons x d =>
    rcases ws_split d with hw | ⟨ws, c, t, rfl, hw, hc⟩
    · rw [knownObject_ws known x hw] at hd; simp at hd
    · rw [knownObject_tok known x hw hc] at hd
      by_cases h1 : c = 34
      · right
        rw [if_pos h1] at hd
        subst h1
        rcases ho : objectKey known (34 :: t) with ⟨m, r⟩
        rw [ho] at hd
        cases r with
        | error e => simp at hd
        | ok k =>
          simp only [Prod.mk.injEq, Except.ok.injEq] at hd
          exact ⟨x, ws, t, m, k, rfl, hw, hd.2.symm, ho, hd.1.symm⟩
      · rw [if_neg h1] at hd
        by_cases h2 : c = 125
        · rw [if_pos h2] at hd
          simp only [Prod.mk.injEq, Except.ok.injEq] at hd
          left; exact ⟨x, ws, t, by rw [h2], hw, hd.2.symm, hd.1.symm⟩
        · rw [if_neg h2] at hd; simp [jerr] at hd

theorem nextKey_ws (known : JFn Bytes) {ws : Bytes} (h : Ws ws) :
    nextKey known ws = (ws.length, .error ⟨.json .eofWhileParsingObject, ws.length⟩) := by
  simp only [nextKey, wsLen_all h, List.drop_length]; rfl

theorem nextKey_tok (known : JFn Bytes) {ws : Bytes} (h : Ws ws) {c : Byte} (hc : isWs c = false) (t : Bytes) :
    nextKey known (ws ++ c :: t) =
      if c = 44 then
        match t.drop (wsLen t) with
        | [] => jerr (ws.length + 1 + wsLen t) .eofWhileParsingValue (ws.length + 1 + wsLen t)
        | c2 :: t2 =>
          if c2 = 34 then
            match objectKey known (c2 :: t2) with
            | (n, .error e) => (ws.length + 1 + wsLen t + n, .error ⟨e.type, ws.length + 1 + wsLen t + e.index⟩)
            | (n, .ok k) => (ws.length + 1 + wsLen t + n, .ok (some k))
          else if c2 = 125 then jerr (ws.length + 1 + wsLen t) .trailingComma (ws.length + 1 + wsLen t)
          else jerr (ws.length + 1 + wsLen t) .keyMustBeAString (ws.length + 1 + wsLen t)
      else if c = 125 then (ws.length + 1, .ok none)
      else jerr ws.length .expectedObjectCommaOrEnd ws.length := by
  have hd : (ws ++ c :: t).drop (ws.length + 1 + wsLen t) = t.drop (wsLen t) := by
    rw [show ws ++ c :: t = (ws ++ [c]) ++ t by simp, show ws.length + 1 + wsLen t = (ws ++ [c]).length + wsLen t by simp,
      ← List.drop_drop, List.drop_left]
  simp only [nextKey, wsLen_cons h hc, List.drop_left, keyAt, hd]
  cases t.drop (wsLen t) with
  | nil => rfl
  | cons c2 t2 => rfl

theorem nextKey_skips (known : JFn Bytes) : Skips (nextKey known) (nextKey known) := by
  constructor
  · intro ws h; exact ⟨_, _, nextKey_ws known h, rfl, rfl⟩
  · intro ws c t h hc
    rw [nextKey_tok known h hc]
    have h0 := nextKey_tok known Ws.nil hc t
    simp only [List.nil_append, List.length_nil, Nat.zero_add] at h0
    rw [h0]
    by_cases h1 : c = 44
    · simp only [h1, if_true]
      cases hd : t.drop (wsLen t) with
      | nil => simp [jerr]; omega
      | cons c2 t2 =>
        simp only
        by_cases h2 : c2 = 34
        · simp only [h2, if_true]
          rcases objectKey known (34 :: t2) with ⟨m, r⟩
          cases r <;> simp <;> omega
        · by_cases h3 : c2 = 125
          · simp [h3, jerr]; omega
          · simp [h2, h3, jerr]; omega
    · by_cases h2 : c = 125
      · simp [h2]
      · simp [h1, h2, jerr]

theorem nextKey_good_end (known : JFn Bytes) (t : Bytes) : Good (nextKey known) false (125 :: t) 1 none 1 := by
  refine ⟨by simp, Nat.le_refl _, by simp, ?_, ?_⟩
  · intro k hk _
    obtain ⟨k, rfl⟩ : ∃ j, k = j + 1 := ⟨k - 1, by omega⟩
    rw [List.take_succ_cons]
    have := nextKey_tok known Ws.nil (c := 125) (by decide) (t.take k)
    simpa using this
  · intro k hk
    obtain rfl : k = 0 := by omega
    exact rfl

theorem nextKey_comma (known : JFn Bytes) {ws : Bytes} (h : Ws ws) (t : Bytes) :
    nextKey known (44 :: (ws ++ 34 :: t)) = match objectKey known (34 :: t) with
      | (n, .error e) => (1 + ws.length + n, .error ⟨e.type, 1 + ws.length + e.index⟩)
      | (n, .ok k) => (1 + ws.length + n, .ok (some k)) := by
  have h0 := nextKey_tok known Ws.nil (c := 44) (by decide) (ws ++ 34 :: t)
  rw [wsLen_cons h (by decide), List.drop_left] at h0
  simpa using h0

theorem nextKey_comma_ws (known : JFn Bytes) {ws : Bytes} (h : Ws ws) :
    nextKey known (44 :: ws) = (1 + ws.length, .error ⟨.json .eofWhileParsingValue, 1 + ws.length⟩) := by
  have h0 := nextKey_tok known Ws.nil (c := 44) (by decide) ws
  rw [wsLen_all h, List.drop_length] at h0
  simpa [jerr] using h0

theorem nextKey_good_key {known : JFn Bytes} (hk : PrefixFn known) {ws : Bytes} (h : Ws ws)
    (t : Bytes) {n : Nat} {v : Bytes} (hn : objectKey known (34 :: t) = (n, .ok v)) :
    Good (nextKey known) false (44 :: (ws ++ 34 :: t)) (1 + ws.length + n) (some v) (1 + ws.length + n) := by
  obtain ⟨o1, o2, o3, o4⟩ := objectKey_prefix hk hn
  simp only [List.length_cons] at o2
  refine ⟨by simp; omega, by omega, by simp, ?_, ?_⟩
  · intro k hkk hkl
    obtain ⟨k, rfl⟩ : ∃ j, k = j + 1 := ⟨k - 1, by omega⟩
    rw [List.take_succ_cons]
    rcases take_ws ws 34 t k with ⟨h1, e⟩ | ⟨h1, e⟩
    · omega
    · rw [e, nextKey_comma known h]
      have := o3 (k - ws.length) (by omega)
      rw [show k - ws.length = (k - ws.length - 1) + 1 by omega, List.take_succ_cons] at this
      rw [this]
  · intro k hkk
    cases k with
    | zero => exact rfl
    | succ k =>
      rw [List.take_succ_cons]
      rcases take_ws ws 34 t k with ⟨h1, e⟩ | ⟨h1, e⟩
      · rw [e, nextKey_comma_ws known (Ws.take h k)]; exact rfl
      · rw [e, nextKey_comma known h]
        obtain ⟨m, er, he, hr, _⟩ := o4 (k - ws.length) (by omega)
        rw [show k - ws.length = (k - ws.length - 1) + 1 by omega, List.take_succ_cons] at he
        rw [he]
        exact hr

theorem nextKey_ok {known : JFn Bytes} {d : Bytes} {n : Nat} {v : Option Bytes} (hd : nextKey known d = (n, .ok v)) :
    (∃ ws t, d = ws ++ 125 :: t ∧ Ws ws ∧ v = none ∧ n = ws.length + 1) ∨
    (∃ ws ws2 t m k, d = ws ++ 44 :: (ws2 ++ 34 :: t) ∧ Ws ws ∧ Ws ws2 ∧ v = some k ∧
      objectKey known (34 :: t) = (m, .ok k) ∧ n = ws.length + (1 + ws2.length + m)) := by
  rcases ws_split d with hw | ⟨ws, c, t, rfl, hw, hc⟩
  · rw [nextKey_ws known hw] at hd; simp at hd
  · rw [nextKey_tok known hw hc] at hd
    by_cases h1 : c = 44
    · right
      rw [if_pos h1] at hd
      rcases ws_split t with hw2 | ⟨ws2, c2, t2, rfl, hw2, hc2⟩
      · rw [wsLen_all hw2, List.drop_length] at hd; simp [jerr] at hd
      · rw [wsLen_cons hw2 hc2, List.drop_left] at hd
        simp only at hd
        by_cases h2 : c2 = 34
        · rw [if_pos h2] at hd
          subst h2
          rcases ho : objectKey known (34 :: t2) with ⟨m, r⟩
          rw [ho] at hd
          cases r with
          | error e => simp at hd
          | ok k =>
            simp only [Prod.mk.injEq, Except.ok.injEq] at hd
            exact ⟨ws, ws2, t2, m, k, by rw [h1], hw, hw2, hd.2.symm, ho, by omega⟩
        · rw [if_neg h2] at hd
          by_cases h3 : c2 = 125
          · rw [if_pos h3] at hd; simp [jerr] at hd
          · rw [if_neg h3] at hd; simp [jerr] at hd
    · rw [if_neg h1] at hd
      by_cases h2 : c = 125
      · rw [if_pos h2] at hd
        simp only [Prod.mk.injEq, Except.ok.injEq] at hd
        left; exact ⟨ws, t, by rw [h2], hw, hd.2.symm, by omega⟩
      · rw [if_neg h2] at hd; simp [jerr] at hd

/-! ### Numbers -/

theorem digits_take (d : Bytes) (k : Nat) : digits (d.take k) = min k (digits d) := by
  simp only [digits]
  induction d generalizing k with
  | nil => simp
  | cons a d ih =>
    cases k with
    | zero => simp
    | succ k =>
      rw [List.take_succ_cons, List.takeWhile_cons, List.takeWhile_cons]
      split
      · simp only [List.length_cons, ih]; omega
      · simp

theorem digits_le (d : Bytes) : digits d ≤ d.length := takeWhile_len_le _ _

/-- A part of the number parser: on a longer prefix it stops at the same place, on a shorter one it stops at
the end of the prefix or reports that the input ended. -/
def NumFn (g : Bytes → Nat → Except (JsonErr × Nat) Nat) : Prop :=
  ∀ d i n, g d i = .ok n → i ≤ n ∧ n - i ≤ d.length ∧
    ∀ k, (n - i < k → g (d.take k) i = .ok n) ∧
      (k ≤ n - i → g (d.take k) i = .ok (i + k) ∨ ∃ j, g (d.take k) i = .error (.eofWhileParsingValue, j))

theorem needDigit_ok {d : Bytes} {i : Nat} (h : needDigit d i = .ok ()) : 0 < digits d := by
  cases d with
  | nil => simp [needDigit] at h
  | cons c t =>
    simp only [needDigit] at h
    split at h
    · rename_i hc; simp [digits, hc]
    · simp at h

theorem needDigit_take {d : Bytes} {i : Nat} (h : needDigit d i = .ok ()) (k : Nat) :
    (0 < k → needDigit (d.take k) i = .ok ()) ∧ (k = 0 → needDigit (d.take k) i = .error (.eofWhileParsingValue, i)) := by
  constructor
  · intro hk
    cases d with
    | nil => simp [needDigit] at h
    | cons c t =>
      obtain ⟨j, rfl⟩ : ∃ j, k = j + 1 := ⟨k - 1, by omega⟩
      rw [List.take_succ_cons]
      exact h
  · intro hk; subst hk; rfl

/-- Length of an optional sign. -/
def signLen (d : Bytes) : Nat :=
  match d with
  | c :: _ => if c = 43 ∨ c = 45 then 1 else 0
  | [] => 0

theorem exponent_eq (d : Bytes) (i : Nat) : exponent d i =
    match needDigit (d.drop (signLen d)) (i + signLen d) with
    | .error e => .error e
    | .ok () => .ok (i + signLen d + digits (d.drop (signLen d))) := by
  unfold exponent
  cases d <;> rfl

theorem exponent_num : NumFn exponent := by
  intro d i n h
  rw [exponent_eq] at h
  cases hn : needDigit (d.drop (signLen d)) (i + signLen d) with
  | error e => rw [hn] at h; simp at h
  | ok u =>
    rw [hn] at h
    simp only [Except.ok.injEq] at h
    subst h
    have hdl := digits_le (d.drop (signLen d))
    have hd0 := needDigit_ok hn
    rw [List.length_drop] at hdl
    have hs1 : signLen d ≤ 1 := by unfold signLen; split <;> (try split) <;> omega
    refine ⟨by omega, by omega, ?_⟩
    intro k
    cases k with
    | zero => exact ⟨by omega, fun _ => .inr ⟨i, by rw [exponent_eq]; rfl⟩⟩
    | succ k =>
      have hsl : signLen (d.take (k + 1)) = signLen d := by
        cases d with
        | nil => rfl
        | cons c t => rfl
      rw [exponent_eq, hsl, List.drop_take, digits_take]
      by_cases hz : k + 1 - signLen d = 0
      · rw [(needDigit_take hn _).2 hz]
        exact ⟨by omega, fun _ => .inr ⟨_, rfl⟩⟩
      · rw [(needDigit_take hn _).1 (by omega)]
        simp only
        constructor
        · intro hh; congr 1; omega
        · intro hh; left; congr 1; omega

theorem decimal_num : NumFn decimal := by
  intro d i n h
  simp only [decimal] at h
  cases hn : needDigit d i with
  | error e => rw [hn] at h; simp at h
  | ok u =>
    rw [hn] at h
    simp only at h
    have hdl := digits_le d
    have hd0 := needDigit_ok hn
    -- on prefixes inside the digits
    have hin : ∀ k, k ≤ digits d → decimal (d.take k) i = .ok (i + k) ∨
        ∃ j, decimal (d.take k) i = .error (.eofWhileParsingValue, j) := by
      intro k hk
      cases k with
      | zero => right; exact ⟨i, rfl⟩
      | succ k =>
        left
        simp only [decimal, (needDigit_take hn (k + 1)).1 (by omega), digits_take]
        rw [Nat.min_eq_left hk, List.drop_eq_nil_of_le (by simp; omega)]
    -- on longer prefixes
    have hout : ∀ k, digits d < k → decimal (d.take k) i =
        match (d.drop (digits d)).take (k - digits d) with
        | c :: t => if c = 101 ∨ c = 69 then exponent t (i + digits d + 1) else .ok (i + digits d)
        | [] => .ok (i + digits d) := by
      intro k hk
      simp only [decimal, (needDigit_take hn k).1 (by omega), digits_take]
      rw [Nat.min_eq_right (by omega), List.drop_take]
      rfl
    cases hd : d.drop (digits d) with
    | nil =>
      rw [hd] at h
      simp only [Except.ok.injEq] at h
      subst h
      refine ⟨by omega, by omega, ?_⟩
      intro k
      constructor
      · intro hk; rw [hout k (by omega), hd]; simp
      · intro hk; exact hin k (by omega)
    | cons c t =>
      rw [hd] at h
      simp only at h
      by_cases hc : c = 101 ∨ c = 69
      · rw [if_pos hc] at h
        obtain ⟨e1, e2, e3⟩ := exponent_num _ _ _ h
        have hlen := congrArg List.length hd
        rw [List.length_drop, List.length_cons] at hlen
        refine ⟨by omega, by omega, ?_⟩
        intro k
        by_cases hk : k ≤ digits d
        · exact ⟨by omega, fun _ => hin k hk⟩
        · rw [hout k (by omega), hd, show k - digits d = (k - digits d - 1) + 1 by omega, List.take_succ_cons]
          simp only
          rw [if_pos hc]
          have := e3 (k - digits d - 1)
          constructor
          · intro hh; exact this.1 (by omega)
          · intro hh
            rcases this.2 (by omega) with h1 | h1
            · left; rw [h1]; congr 1; omega
            · right; exact h1
      · rw [if_neg hc] at h
        simp only [Except.ok.injEq] at h
        subst h
        refine ⟨by omega, by omega, ?_⟩
        intro k
        constructor
        · intro hk
          rw [hout k (by omega), hd, show k - digits d = (k - digits d - 1) + 1 by omega, List.take_succ_cons]
          simp only
          rw [if_neg hc]
        · intro hk; exact hin k (by omega)

theorem numberTail_num : NumFn numberTail := by
  intro d i n h
  cases d with
  | nil =>
    simp only [numberTail, Except.ok.injEq] at h
    subst h
    refine ⟨by omega, by simp, ?_⟩
    intro k
    simp only [List.take_nil]
    exact ⟨fun _ => rfl, fun hk => .inl (by simp only [numberTail]; congr 1; omega)⟩
  | cons c t =>
    have hz : numberTail ((c :: t).take 0) i = .ok (i + 0) := rfl
    simp only [numberTail] at h
    by_cases h1 : c = 46
    · rw [if_pos h1] at h
      obtain ⟨e1, e2, e3⟩ := decimal_num _ _ _ h
      refine ⟨by omega, by simp; omega, ?_⟩
      intro k
      cases k with
      | zero => exact ⟨by omega, fun _ => .inl hz⟩
      | succ k =>
        rw [List.take_succ_cons]
        simp only [numberTail]
        rw [if_pos h1]
        constructor
        · intro hh; exact (e3 k).1 (by omega)
        · intro hh
          rcases (e3 k).2 (by omega) with h2 | h2
          · left; rw [h2]; congr 1; omega
          · right; exact h2
    · rw [if_neg h1] at h
      by_cases h2 : c = 101 ∨ c = 69
      · rw [if_pos h2] at h
        obtain ⟨e1, e2, e3⟩ := exponent_num _ _ _ h
        refine ⟨by omega, by simp; omega, ?_⟩
        intro k
        cases k with
        | zero => exact ⟨by omega, fun _ => .inl hz⟩
        | succ k =>
          rw [List.take_succ_cons]
          simp only [numberTail]
          rw [if_neg h1, if_pos h2]
          constructor
          · intro hh; exact (e3 k).1 (by omega)
          · intro hh
            rcases (e3 k).2 (by omega) with h2 | h2
            · left; rw [h2]; congr 1; omega
            · right; exact h2
      · rw [if_neg h2] at h
        simp only [Except.ok.injEq] at h
        subst h
        refine ⟨by omega, by simp, ?_⟩
        intro k
        cases k with
        | zero => exact ⟨by omega, fun _ => .inl hz⟩
        | succ k =>
          refine ⟨fun _ => ?_, by omega⟩
          rw [List.take_succ_cons]
          simp only [numberTail]
          rw [if_neg h1, if_neg h2]

/-- Behind the sign. -/
def numBody (t : Bytes) (s : Nat) : Except (JsonErr × Nat) Nat :=
  match needDigit t s with
  | .error e => .error e
  | .ok () =>
    match t with
    | 48 :: t =>
      match t with
      | c :: _ => if isDigit c then .error (.invalidNumber, s + 1) else numberTail t (s + 1)
      | [] => .ok (s + 1)
    | t => numberTail (t.drop (digits t)) (s + digits t)

/-- Length of a minus sign. -/
def minusLen (d : Bytes) : Nat :=
  match d with
  | c :: _ => if c = 45 then 1 else 0
  | [] => 0

theorem numberEnd_eq (d : Bytes) : numberEnd d = numBody (d.drop (minusLen d)) (minusLen d) := by
  unfold numberEnd numBody
  cases d <;> rfl

theorem numBody_num : NumFn numBody := by
  intro d i n h
  unfold numBody at h
  cases hn : needDigit d i with
  | error e => rw [hn] at h; simp at h
  | ok u =>
    rw [hn] at h
    simp only at h
    have hd0 := needDigit_ok hn
    have hdl := digits_le d
    cases d with
    | nil => simp [needDigit] at hn
    | cons c t =>
      have hz : ∃ j, numBody ((c :: t).take 0) i = .error (.eofWhileParsingValue, j) := ⟨i, rfl⟩
      by_cases hc : c = 48
      · subst hc
        simp only at h
        cases t with
        | nil =>
          simp only [Except.ok.injEq] at h
          subst h
          refine ⟨by omega, by simp, ?_⟩
          intro k
          cases k with
          | zero => exact ⟨by omega, fun _ => .inr hz⟩
          | succ k =>
            have : numBody (([48] : Bytes).take (k + 1)) i = .ok (i + 1) := by
              simp [numBody, needDigit, isDigit]
            rw [this]
            exact ⟨fun _ => rfl, fun hk => .inl (by congr 1; omega)⟩
        | cons c2 t2 =>
          simp only at h
          by_cases hd : isDigit c2 = true
          · rw [if_pos hd] at h; simp at h
          · rw [if_neg hd] at h
            obtain ⟨e1, e2, e3⟩ := numberTail_num _ _ _ h
            refine ⟨by omega, by simp at e2 ⊢; omega, ?_⟩
            intro k
            match k with
            | 0 => exact ⟨by omega, fun _ => .inr hz⟩
            | 1 =>
              have h1 : numBody ((48 :: c2 :: t2 : Bytes).take 1) i = .ok (i + 1) := by
                simp [numBody, needDigit, isDigit]
              rw [h1]
              exact ⟨fun hh => by congr 1; omega, fun hh => .inl rfl⟩
            | k + 2 =>
              have h1 : numBody ((48 :: c2 :: t2 : Bytes).take (k + 2)) i = numberTail ((c2 :: t2).take (k + 1)) (i + 1) := by
                simp only [List.take_succ_cons, numBody, needDigit]
                rw [if_pos (by decide)]
                simp only
                rw [if_neg hd]
              rw [h1]
              constructor
              · intro hh; exact (e3 (k + 1)).1 (by omega)
              · intro hh
                rcases (e3 (k + 1)).2 (by omega) with h2 | h2
                · left; rw [h2]; congr 1; omega
                · right; exact h2
      · have hbody : ∀ t', needDigit (c :: t') i = .ok () →
            numBody (c :: t') i = numberTail ((c :: t').drop (digits (c :: t'))) (i + digits (c :: t')) := by
          intro t' hn'
          unfold numBody
          rw [hn']
          simp only
          split
          · rename_i heq
            simp only [List.cons.injEq] at heq
            exact absurd heq.1 hc
          · rfl
        have h' : numBody (c :: t) i = .ok n := by
          unfold numBody
          rw [hn]
          exact h
        rw [hbody t hn] at h'
        obtain ⟨e1, e2, e3⟩ := numberTail_num _ _ _ h'
        rw [List.length_drop] at e2
        refine ⟨by omega, by omega, ?_⟩
        intro k
        cases k with
        | zero => exact ⟨by omega, fun _ => .inr hz⟩
        | succ k =>
          have hn' := (needDigit_take hn (k + 1)).1 (by omega)
          have hb := hbody (t.take k) (by rw [List.take_succ_cons] at hn'; exact hn')
          rw [← List.take_succ_cons, digits_take, List.drop_take] at hb
          rw [hb]
          by_cases hk : k + 1 ≤ digits (c :: t)
          · rw [Nat.min_eq_left hk, Nat.sub_self, List.take_zero]
            refine ⟨by omega, fun _ => .inl rfl⟩
          · rw [Nat.min_eq_right (by omega)]
            constructor
            · intro hh; exact (e3 _).1 (by omega)
            · intro hh
              rcases (e3 (k + 1 - digits (c :: t))).2 (by omega) with h2 | h2
              · left; rw [h2]; congr 1; omega
              · right; exact h2

theorem numBody_pos {d : Bytes} {i n : Nat} (h : numBody d i = .ok n) : i < n := by
  obtain ⟨h1, _, h3⟩ := numBody_num d i n h
  by_cases hh : n = i
  · have := (h3 0).2 (by omega)
    rw [List.take_zero] at this
    simp [numBody, needDigit] at this
    have h4 := (h3 1).1 (by omega)
    have h5 := (h3 0).2 (by omega)
    -- with no digit there is no number
    unfold numBody at h
    cases hn : needDigit d i with
    | error e => rw [hn] at h; simp at h
    | ok u =>
      have hd0 := needDigit_ok hn
      have hp : numBody (d.take 1) i = .ok (i + 1) ∨ ∃ e, numBody (d.take 1) i = .error e := by
        cases d with
        | nil => simp [digits] at hd0
        | cons c t =>
          simp only [List.take_succ_cons, List.take_zero]
          by_cases hc : c = 48
          · left; subst hc; simp [numBody, needDigit, isDigit]
          · left
            have hcd : isDigit c = true := by
              simp only [needDigit] at hn
              split at hn
              · assumption
              · simp at hn
            unfold numBody
            simp only [needDigit, hcd, if_true]
            split
            · rename_i heq; simp only [List.cons.injEq] at heq; exact absurd heq.1 hc
            · simp [digits, hcd, numberTail]
      rw [hh] at h4
      rcases hp with hp | ⟨e, hp⟩
      · rw [h4] at hp; simp at hp
      · rw [h4] at hp; simp at hp
  · omega

/-- The number token is good if something follows it. -/
theorem numberTok_good {d : Bytes} {n : Nat} {v : Bytes} (h : numberTok d = (n, .ok v)) (hl : n < d.length) :
    Good numberTok true d n v (n + 1) ∧ v = d.take n ∧ 0 < n ∧ Stay numberTok d (n + 1) := by
  simp only [numberTok] at h
  cases hn : numberEnd d with
  | error e => rw [hn] at h; simp [jerr] at h
  | ok m =>
    rw [hn] at h
    simp only [Prod.mk.injEq, Except.ok.injEq] at h
    obtain ⟨rfl, rfl⟩ := h
    rw [numberEnd_eq] at hn
    have hp := numBody_pos hn
    obtain ⟨b1, b2, b3⟩ := numBody_num _ _ _ hn
    rw [List.length_drop] at b2
    have hm : minusLen d ≤ 1 := by unfold minusLen; split <;> (try split) <;> omega
    have hpre : ∀ k, 0 < k → numberEnd (d.take k) = numBody ((d.drop (minusLen d)).take (k - minusLen d)) (minusLen d) := by
      intro k hk
      have : minusLen (d.take k) = minusLen d := by
        obtain ⟨j, rfl⟩ : ∃ j, k = j + 1 := ⟨k - 1, by omega⟩
        cases d <;> rfl
      rw [numberEnd_eq, this, List.drop_take]
    have hshort : ∀ k, k < m + 1 → (∃ j, numberTok (d.take k) = jerr 0 .eofWhileParsingValue j) ∨
        ∃ w, numberTok (d.take k) = (k, .ok w) := by
      intro k hk
      cases k with
      | zero => left; exact ⟨0, rfl⟩
      | succ k =>
        simp only [numberTok, hpre (k + 1) (by omega)]
        by_cases hkm : k + 1 < minusLen d
        · omega
        rcases (b3 (k + 1 - minusLen d)).2 (by omega) with h1 | ⟨j, h1⟩
        · right
          rw [h1, show minusLen d + (k + 1 - minusLen d) = k + 1 by omega]
          exact ⟨_, rfl⟩
        · left; exact ⟨j, by rw [h1]⟩
    refine ⟨⟨by omega, by omega, by intro _; omega, ?_, ?_⟩, rfl, by omega, ?_⟩
    · intro k hk hkl
      simp only [numberTok, hpre k (by omega)]
      rw [(b3 (k - minusLen d)).1 (by omega)]
      simp only
      rw [List.take_take, Nat.min_eq_left (by omega)]
    · intro k hk
      rcases hshort k hk with ⟨j, hj⟩ | ⟨w, hw⟩
      · rw [hj]; exact rfl
      · rw [hw]; exact ⟨rfl, Nat.le_refl _⟩
    · intro k hk
      rcases hshort k hk with ⟨j, hj⟩ | ⟨w, hw⟩
      · left; rw [hj]; rfl
      · right; rw [hw]; exact Nat.le_refl _

end Jiter

end Verif.RJiter
