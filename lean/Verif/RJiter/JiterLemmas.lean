import Verif.RJiter.Loop

/-!
# The jiter functions on prefixes of a document
-/

namespace Verif.RJiter

open Buffer RJ

/-- Only JSON whitespace. -/
def Ws (l : Bytes) : Prop := ∀ c ∈ l, Jiter.isWs c = true

namespace Jiter

theorem isAscii_of_isWs {c : Byte} (h : isWs c = true) : isAsciiWs c = true := by
  simp only [isWs, isAsciiWs, Bool.or_eq_true, beq_iff_eq] at *
  rcases h with ((h | h) | h) | h <;> simp [h]

theorem not_isAscii {c : Byte} (h : isWs c = false) (hff : c ≠ 12) : isAsciiWs c = false := by
  simp only [isWs, isAsciiWs, Bool.or_eq_false_iff, beq_eq_false_iff_ne, ne_eq] at *
  simp [h, hff]

theorem wsLen_all {l : Bytes} (h : Ws l) : wsLen l = l.length := by
  rw [wsLen, takeWhile_all h]

theorem wsLen_cons {ws : Bytes} (h : Ws ws) {c : Byte} (hc : isWs c = false) (t : Bytes) :
    wsLen (ws ++ c :: t) = ws.length := by
  rw [wsLen, takeWhile_pos_append h]; simp [hc]

theorem wsLen_le (l : Bytes) : wsLen l ≤ l.length := takeWhile_len_le _ _

/-- Every input is whitespace, or whitespace and then something else. -/
theorem ws_split (d : Bytes) : Ws d ∨ ∃ ws c t, d = ws ++ c :: t ∧ Ws ws ∧ isWs c = false := by
  induction d with
  | nil => left; intro c hc; simp at hc
  | cons a d ih =>
    by_cases ha : isWs a = true
    · rcases ih with h | ⟨ws, c, t, rfl, hw, hc⟩
      · left
        intro c hc
        rcases List.mem_cons.mp hc with rfl | hc
        · exact ha
        · exact h c hc
      · right
        refine ⟨a :: ws, c, t, rfl, ?_, hc⟩
        intro x hx
        rcases List.mem_cons.mp hx with rfl | hx
        · exact ha
        · exact hw x hx
    · right
      exact ⟨[], a, d, rfl, by intro c hc; simp at hc, by simpa using ha⟩

theorem take_ws (ws : Bytes) (c : Byte) (t : Bytes) (k : Nat) :
    (k ≤ ws.length ∧ (ws ++ c :: t).take k = ws.take k) ∨
    (ws.length < k ∧ (ws ++ c :: t).take k = ws ++ c :: t.take (k - ws.length - 1)) := by
  by_cases h : k ≤ ws.length
  · left; exact ⟨h, List.take_append_of_le_length h⟩
  · right
    refine ⟨by omega, ?_⟩
    rw [List.take_append, List.take_of_length_le (by omega)]
    obtain ⟨j, hj⟩ : ∃ j, k - ws.length = j + 1 := ⟨k - ws.length - 1, by omega⟩
    rw [hj, List.take_succ_cons]
    rfl

theorem Ws.take {ws : Bytes} (h : Ws ws) (k : Nat) : Ws (ws.take k) := fun c hc => h c (List.mem_of_mem_take hc)

theorem Ws.nil : Ws [] := by intro c hc; simp at hc

/-! ### Whitespace in front -/

/-- `f` is `g` behind leading whitespace. -/
structure Skips {α : Type} (f g : JFn α) : Prop where
  onWs : ∀ ws, Ws ws → ∃ n e, f ws = (n, .error e) ∧ canRetry e.type = true ∧ n = ws.length
  onTok : ∀ ws c t, Ws ws → isWs c = false →
    (f (ws ++ c :: t)).1 = ws.length + (g (c :: t)).1 ∧
    (∀ v, (g (c :: t)).2 = .ok v ↔ (f (ws ++ c :: t)).2 = .ok v) ∧
    (∀ e, (g (c :: t)).2 = .error e → ∃ e', (f (ws ++ c :: t)).2 = .error e' ∧ e'.type = e.type)

theorem Skips.good {α : Type} {f g : JFn α} (h : Skips f g) {eager : Bool} {ws : Bytes} {c : Byte} {t : Bytes}
    {n need : Nat} {v : α} (hw : Ws ws) (hc : isWs c = false) (hg : Good g eager (c :: t) n v need)
    (hn : 0 < need) :
    Good f eager (ws ++ c :: t) (ws.length + n) v (ws.length + need) := by
  have hfit := hg.fits
  simp only [List.length_cons] at hfit
  refine ⟨by simp; omega, by have := hg.moved; omega, fun he => by have := hg.margin he; omega, ?_, ?_⟩
  · intro k hk hkl
    rcases take_ws ws c t k with ⟨h1, e⟩ | ⟨h1, e⟩
    · omega
    · rw [e]
      obtain ⟨h2, h3, _⟩ := h.onTok ws c (t.take (k - ws.length - 1)) hw hc
      have := hg.enough (k - ws.length) (by omega) (by simp at hkl ⊢; omega)
      rw [show k - ws.length = (k - ws.length - 1) + 1 by omega, List.take_succ_cons] at this
      rw [Prod.ext_iff]
      constructor
      · rw [h2, this]
      · rw [(h3 v).mp (by rw [this])]
  · intro k hk
    rcases take_ws ws c t k with ⟨h1, e⟩ | ⟨h1, e⟩
    · rw [e]
      obtain ⟨m, er, h2, h3, _⟩ := h.onWs _ (Ws.take hw k)
      rw [h2]; exact h3
    · rw [e]
      obtain ⟨h2, h3, h4⟩ := h.onTok ws c (t.take (k - ws.length - 1)) hw hc
      have := hg.short (k - ws.length) (by omega)
      rw [show k - ws.length = (k - ws.length - 1) + 1 by omega, List.take_succ_cons] at this
      rcases hf : f (ws ++ c :: t.take (k - ws.length - 1)) with ⟨m, r⟩
      rcases hg' : g (c :: t.take (k - ws.length - 1)) with ⟨m', r'⟩
      rw [hg'] at this h2 h3 h4
      rw [hf] at h2 h3 h4
      simp only at h2 h3 h4
      cases r' with
      | error er =>
        obtain ⟨e', h5, h6⟩ := h4 er rfl
        simp only [Retry] at this
        subst h5
        simp only [Retry]
        rw [h6]; exact this
      | ok w =>
        have h5 := (h3 w).mp rfl
        subst h5
        simp only [Retry] at this ⊢
        exact ⟨this.1, by omega⟩

/-! ### `peek` -/

theorem peek_ws {ws : Bytes} (h : Ws ws) : peek ws = (ws.length, .error ⟨.json .eofWhileParsingValue, ws.length⟩) := by
  simp only [peek, wsLen_all h, List.drop_length]; rfl

theorem peek_tok {ws : Bytes} (h : Ws ws) {c : Byte} (hc : isWs c = false) (t : Bytes) :
    peek (ws ++ c :: t) = (ws.length, .ok c) := by
  simp only [peek, wsLen_cons h hc, List.drop_left]

theorem peek_ok {d : Bytes} {n : Nat} {c : Byte} (h : peek d = (n, .ok c)) :
    ∃ ws t, d = ws ++ c :: t ∧ Ws ws ∧ isWs c = false ∧ n = ws.length := by
  rcases ws_split d with hw | ⟨ws, c', t, rfl, hw, hc⟩
  · rw [peek_ws hw] at h; simp at h
  · rw [peek_tok hw hc] at h
    simp only [Prod.mk.injEq, Except.ok.injEq] at h
    obtain ⟨rfl, rfl⟩ := h
    exact ⟨ws, t, rfl, hw, hc, rfl⟩

/-- A function that peeks first: `peek`, then `g` on the rest. -/
theorem skips_of_peek {α : Type} {f g : JFn α}
    (h1 : ∀ d w e, peek d = (w, .error e) → f d = (w, .error e))
    (h2 : ∀ d w c, peek d = (w, .ok c) → (f d).1 = w + (g (d.drop w)).1 ∧
      (∀ v, (g (d.drop w)).2 = .ok v ↔ (f d).2 = .ok v) ∧
      (∀ e, (g (d.drop w)).2 = .error e → ∃ e', (f d).2 = .error e' ∧ e'.type = e.type)) : Skips f g := by
  constructor
  · intro ws hw
    exact ⟨_, _, h1 _ _ _ (peek_ws hw), rfl, rfl⟩
  · intro ws c t hw hc
    have := h2 _ _ _ (peek_tok hw hc t)
    rwa [List.drop_left] at this

/-! ### Strings -/

theorem rawString_prefix : ∀ (N : Nat) (d : Bytes), d.length ≤ N → ∀ i n, rawString d i = .ok n →
    i ≤ n ∧ n - i < d.length ∧
    ∀ k, (n - i < k → rawString (d.take k) i = .ok n) ∧
      (k ≤ n - i → ∃ j, rawString (d.take k) i = .error (.eofWhileParsingString, j)) := by
  intro N
  induction N with
  | zero =>
    intro d hd i n h
    have : d = [] := List.length_eq_zero_iff.mp (by omega)
    subst this
    simp [rawString] at h
  | succ N ih =>
    intro d hd i n h
    cases d with
    | nil => simp [rawString] at h
    | cons c cs =>
      simp only [List.length_cons] at hd
      have hnil : ∃ j, rawString ([] : Bytes) i = .error (.eofWhileParsingString, j) := ⟨i, by simp [rawString]⟩
      by_cases hq : c = 34
      · rw [rawString.eq_def] at h
        simp only [hq, if_true, Except.ok.injEq] at h
        subst h
        refine ⟨Nat.le_refl _, by simp, ?_⟩
        intro k
        cases k with
        | zero => exact ⟨by omega, fun _ => hnil⟩
        | succ k =>
          refine ⟨fun _ => ?_, by omega⟩
          rw [List.take_succ_cons, rawString.eq_def]; simp [hq]
      · by_cases hb : c = 92
        · cases cs with
          | nil => simp [rawString, hb] at h
          | cons e cs' =>
            simp only [List.length_cons] at hd
            have h1 : ∃ j, rawString [c] i = .error (.eofWhileParsingString, j) := ⟨i + 1, by simp [rawString, hb]⟩
            -- common end
            have hfin : rawString cs' (i + 2) = .ok n →
                (∀ k, rawString ((c :: e :: cs').take (k + 2)) i = rawString (cs'.take k) (i + 2)) →
                i ≤ n ∧ n - i < (c :: e :: cs').length ∧
                ∀ k, (n - i < k → rawString ((c :: e :: cs').take k) i = .ok n) ∧
                  (k ≤ n - i → ∃ j, rawString ((c :: e :: cs').take k) i = .error (.eofWhileParsingString, j)) := by
              intro hr hk
              obtain ⟨i1, i2, i3⟩ := ih cs' (by omega) (i + 2) n hr
              refine ⟨by omega, by simp; omega, ?_⟩
              intro k
              match k with
              | 0 => exact ⟨by omega, fun _ => hnil⟩
              | 1 => exact ⟨by omega, fun _ => h1⟩
              | k + 2 =>
                rw [hk]
                exact ⟨fun hh => (i3 k).1 (by omega), fun hh => (i3 k).2 (by omega)⟩
            rw [rawString.eq_def] at h
            simp only [hb, if_true] at h
            rw [if_neg (by decide)] at h
            by_cases hs : e = 34 ∨ e = 92 ∨ e = 47 ∨ e = 98 ∨ e = 102 ∨ e = 110 ∨ e = 114 ∨ e = 116
            · rw [if_pos hs] at h
              apply hfin h
              intro k
              rw [List.take_succ_cons, List.take_succ_cons, rawString.eq_def]
              simp only [hb]
              rw [if_neg (by decide), if_pos trivial, if_pos hs]
            · rw [if_neg hs] at h
              by_cases hu : e = 117
              · rw [if_pos hu] at h
                by_cases hnq : cs'.head? = some 34
                · rw [if_pos hnq] at h; simp at h
                rw [if_neg hnq] at h
                apply hfin h
                intro k
                rw [List.take_succ_cons, List.take_succ_cons, rawString.eq_def]
                simp only [hb]
                rw [if_neg (by decide), if_pos trivial, if_neg hs, if_pos hu, if_neg]
                cases cs' with
                | nil => simp
                | cons x xs =>
                  cases k with
                  | zero => simp
                  | succ k => simpa using hnq
              · rw [if_neg hu] at h; simp at h
        · have hstep : ∀ l, rawString (c :: l) i = if c < 32 then .error (.controlCharacterWhileParsingString, i)
              else rawString l (i + 1) := by
            intro l
            rw [rawString.eq_def]
            simp only [hq, hb, if_false]
          rw [hstep] at h
          by_cases hc : c < 32
          · rw [if_pos hc] at h; simp at h
          · rw [if_neg hc] at h
            obtain ⟨i1, i2, i3⟩ := ih cs (by omega) (i + 1) n h
            refine ⟨by omega, by simp; omega, ?_⟩
            intro k
            cases k with
            | zero => exact ⟨by omega, fun _ => hnil⟩
            | succ k =>
              rw [List.take_succ_cons, hstep, if_neg hc]
              exact ⟨fun hh => (i3 k).1 (by omega), fun hh => (i3 k).2 (by omega)⟩

/-- What the callers of `known_str` / `known_bytes` rely on: a success looks at the consumed bytes only, and a
shorter prefix is reported as incomplete without moving. -/
def PrefixFn {α : Type} (known : JFn α) : Prop :=
  ∀ d n v, known d = (n, .ok v) → 2 ≤ n ∧ n ≤ d.length ∧
    (∀ k, n ≤ k → known (d.take k) = (n, .ok v)) ∧
    (∀ k, k < n → ∃ e, known (d.take k) = (0, .error e) ∧ canRetry e.type = true)

theorem knownBytes_prefix : PrefixFn knownBytes := by
  intro d n v h
  simp only [knownBytes] at h
  cases hr : rawString (d.drop 1) 0 with
  | error e => rw [hr] at h; simp [jerr] at h
  | ok m =>
    rw [hr] at h
    simp only [Prod.mk.injEq, Except.ok.injEq] at h
    obtain ⟨rfl, rfl⟩ := h
    obtain ⟨_, h2, h3⟩ := rawString_prefix _ _ (Nat.le_refl _) _ _ hr
    simp only [List.length_drop, Nat.sub_zero] at h2
    refine ⟨by omega, by omega, ?_, ?_⟩
    · intro k hk
      have := (h3 (k - 1)).1 (by omega)
      simp only [knownBytes, List.drop_take, this]
      rw [List.take_take, Nat.min_eq_left (by omega)]
    · intro k hk
      obtain ⟨j, hj⟩ := (h3 (k - 1)).2 (by omega)
      refine ⟨⟨.json .eofWhileParsingString, 1 + j⟩, by simp only [knownBytes, List.drop_take, hj, jerr], rfl⟩

/-! ### Decoded strings -/

theorem parseU4_take {d : Bytes} {i : Nat} :
    (4 ≤ d.length → ∀ k, 4 ≤ k → parseU4 (d.take k) i = parseU4 d i) ∧
    (∀ k, k < 4 → parseU4 (d.take k) i = .error (.eofWhileParsingString, i)) := by
  constructor
  · intro hd k hk
    match d, k with
    | a :: b :: c :: e :: r, k + 4 => simp [parseU4]
    | [], _ => simp at hd
    | [_], _ => simp at hd
    | [_, _], _ => simp at hd
    | [_, _, _], _ => simp at hd
    | _, 0 => omega
    | _, 1 => omega
    | _, 2 => omega
    | _, 3 => omega
  · intro k hk
    have hl : (d.take k).length < 4 := by simp; omega
    revert hl
    generalize d.take k = x
    intro hl
    match x with
    | [] => rfl
    | [_] => rfl
    | [_, _] => rfl
    | [_, _, _] => rfl
    | _ :: _ :: _ :: _ :: _ => simp at hl; omega

theorem parseU4_length {d : Bytes} {i n : Nat} (h : parseU4 d i = .ok n) : 4 ≤ d.length := by
  match d with
  | [] => simp [parseU4] at h
  | [_] => simp [parseU4] at h
  | [_, _] => simp [parseU4] at h
  | [_, _, _] => simp [parseU4] at h
  | _ :: _ :: _ :: _ :: _ => simp

theorem unicodeEscape_prefix {d : Bytes} {i m : Nat} {bs : Bytes} (h : unicodeEscape d i = .ok (bs, m)) :
    m ≤ d.length ∧ 4 ≤ m ∧ (∀ k, m ≤ k → unicodeEscape (d.take k) i = .ok (bs, m)) ∧
    (∀ k, k < m → ∃ j, unicodeEscape (d.take k) i = .error (.eofWhileParsingString, j)) := by
  unfold unicodeEscape at h
  cases hp : parseU4 d i with
  | error e => rw [hp] at h; simp at h
  | ok n =>
    rw [hp] at h
    have h4 := parseU4_length hp
    have hshort : ∀ k, k < 4 → ∃ j, unicodeEscape (d.take k) i = .error (.eofWhileParsingString, j) := by
      intro k hk
      exact ⟨i, by rw [unicodeEscape, (parseU4_take).2 k hk]⟩
    have hlong : ∀ k, 4 ≤ k → parseU4 (d.take k) i = .ok n := fun k hk => by rw [parseU4_take.1 h4 k hk, hp]
    simp only at h
    by_cases h1 : 0xDC00 ≤ n ∧ n ≤ 0xDFFF
    · rw [if_pos h1] at h; simp at h
    · rw [if_neg h1] at h
      by_cases h2 : 0xD800 ≤ n ∧ n ≤ 0xDBFF
      · rw [if_pos h2] at h
        match hd : d.drop 4 with
        | [] => rw [hd] at h; simp at h
        | [x] =>
          rw [hd] at h
          by_cases hx : x = 92
          · subst hx; simp at h
          · have : ∀ y : Byte, y = x → y ≠ 92 → False := by
              intro y hy hy2
              subst hy
              split at h <;> simp_all
            exact (this x rfl hx).elim
        | x :: y :: d2 =>
          rw [hd] at h
          by_cases hx : x = 92
          · by_cases hy : y = 117
            · subst hx; subst hy
              simp only at h
              cases hp2 : parseU4 d2 (i + 6) with
              | error e => rw [hp2] at h; simp at h
              | ok n2 =>
                rw [hp2] at h
                simp only at h
                by_cases h3 : 0xDC00 ≤ n2 ∧ n2 ≤ 0xDFFF
                · rw [if_pos h3] at h
                  simp only [Except.ok.injEq, Prod.mk.injEq] at h
                  obtain ⟨rfl, rfl⟩ := h
                  have hd2 := parseU4_length hp2
                  have hdl : d.length = 4 + (2 + d2.length) := by
                    have := congrArg List.length hd
                    simp at this; omega
                  have hdt : ∀ k, (d.take k).drop 4 = (92 :: 117 :: d2 : Bytes).take (k - 4) := by
                    intro k; rw [List.drop_take, hd]
                  refine ⟨by omega, by omega, ?_, ?_⟩
                  · intro k hk
                    obtain ⟨q, rfl⟩ : ∃ q, k = q + 4 + 2 + 4 := ⟨k - 10, by omega⟩
                    rw [unicodeEscape, hlong _ (by omega)]
                    simp only
                    rw [if_neg h1, if_pos h2, hdt, show q + 4 + 2 + 4 - 4 = q + 4 + 2 by omega]
                    simp only [List.take_succ_cons]
                    rw [parseU4_take.1 hd2 _ (by omega), hp2]
                    simp only
                    rw [if_pos h3]
                  · intro k hk
                    by_cases hk4 : k < 4
                    · exact hshort k hk4
                    · rw [unicodeEscape, hlong _ (by omega)]
                      simp only
                      rw [if_neg h1, if_pos h2, hdt]
                      obtain ⟨q, hq⟩ : ∃ q, q = k - 4 := ⟨_, rfl⟩
                      rw [← hq]
                      match q with
                      | 0 => exact ⟨_, rfl⟩
                      | 1 => exact ⟨_, rfl⟩
                      | q + 2 =>
                        simp only [List.take_succ_cons]
                        rw [parseU4_take.2 q (by omega)]
                        exact ⟨_, rfl⟩
                · rw [if_neg h3] at h; simp at h
            · exfalso
              subst hx
              split at h <;> simp_all
          · exfalso
            split at h <;> simp_all
      · rw [if_neg h2] at h
        simp only [Except.ok.injEq, Prod.mk.injEq] at h
        obtain ⟨rfl, rfl⟩ := h
        refine ⟨h4, Nat.le_refl _, ?_, hshort⟩
        intro k hk
        rw [unicodeEscape, hlong k hk]
        simp only
        rw [if_neg h1, if_neg h2]

theorem decodeLoop_prefix : ∀ (fuel : Nat) (d : Bytes) (i : Nat) (acc s : Bytes) (n : Nat),
    decodeLoop fuel d i acc = .ok (s, n) →
    i ≤ n ∧ n - i < d.length ∧
    ∀ fuel' k, (d.take k).length < fuel' →
      (n - i < k → decodeLoop fuel' (d.take k) i acc = .ok (s, n)) ∧
      (k ≤ n - i → ∃ j, decodeLoop fuel' (d.take k) i acc = .error (.eofWhileParsingString, j)) := by
  intro fuel
  induction fuel with
  | zero => intro d i acc s n h; simp [decodeLoop] at h
  | succ fuel ih =>
    intro d i acc s n h
    have hnil : ∀ f, ∃ j, decodeLoop f ([] : Bytes) i acc = .error (.eofWhileParsingString, j) := by
      intro f; refine ⟨i, ?_⟩
      cases f <;> simp [decodeLoop]
    cases d with
    | nil => simp [decodeLoop] at h
    | cons c cs =>
      by_cases hq : c = 34
      · rw [decodeLoop.eq_def] at h
        simp only [hq, if_true, Except.ok.injEq, Prod.mk.injEq] at h
        obtain ⟨rfl, rfl⟩ := h
        refine ⟨Nat.le_refl _, by simp, ?_⟩
        intro f k hf
        cases k with
        | zero => exact ⟨by omega, fun _ => hnil f⟩
        | succ k =>
          refine ⟨fun _ => ?_, by omega⟩
          cases f with
          | zero => omega
          | succ f => rw [List.take_succ_cons, decodeLoop.eq_def]; simp [hq]
      · by_cases hb : c = 92
        · cases cs with
          | nil => simp [decodeLoop, hb] at h
          | cons e cs' =>
            have h1 : ∀ f, ∃ j, decodeLoop f [c] i acc = .error (.eofWhileParsingString, j) := by
              intro f
              cases f with
              | zero => exact ⟨i, rfl⟩
              | succ f => exact ⟨i + 1, by simp [decodeLoop, hb]⟩
            have hstep : ∀ f (l : Bytes), decodeLoop (f + 1) (c :: e :: l) i acc =
                match simpleEscape e with
                | some x => decodeLoop f l (i + 2) (acc ++ [x])
                | none =>
                  if e = 117 then
                    match unicodeEscape l (i + 2) with
                    | .error er => .error er
                    | .ok (bs, n) => decodeLoop f (l.drop n) (i + 2 + n) (acc ++ bs)
                  else .error (.invalidEscape, i + 1) := by
              intro f l
              rw [decodeLoop.eq_def]
              simp only [hb, if_true]
              rw [if_neg (by decide)]
              rfl
            rw [hstep] at h
            cases hse : simpleEscape e with
            | some x =>
              rw [hse] at h
              simp only at h
              obtain ⟨i1, i2, i3⟩ := ih _ _ _ _ _ h
              refine ⟨by omega, by simp; omega, ?_⟩
              intro f k hf
              match k with
              | 0 => exact ⟨by omega, fun _ => hnil f⟩
              | 1 => exact ⟨by omega, fun _ => h1 f⟩
              | k + 2 =>
                simp only [List.take_succ_cons, List.length_cons] at hf ⊢
                obtain ⟨g, rfl⟩ : ∃ g, f = g + 1 := ⟨f - 1, by omega⟩
                rw [hstep, hse]
                have := i3 g k (by omega)
                exact ⟨fun hh => this.1 (by omega), fun hh => this.2 (by omega)⟩
            | none =>
              rw [hse] at h
              simp only at h
              by_cases hu : e = 117
              · rw [if_pos hu] at h
                cases hue : unicodeEscape cs' (i + 2) with
                | error er => rw [hue] at h; simp at h
                | ok r =>
                  obtain ⟨bs, m⟩ := r
                  rw [hue] at h
                  simp only at h
                  obtain ⟨u1, u2, u3, u4⟩ := unicodeEscape_prefix hue
                  obtain ⟨i1, i2, i3⟩ := ih _ _ _ _ _ h
                  rw [List.length_drop] at i2
                  refine ⟨by omega, by simp; omega, ?_⟩
                  intro f k hf
                  match k with
                  | 0 => exact ⟨by omega, fun _ => hnil f⟩
                  | 1 => exact ⟨by omega, fun _ => h1 f⟩
                  | k + 2 =>
                    simp only [List.take_succ_cons, List.length_cons] at hf ⊢
                    obtain ⟨g, rfl⟩ : ∃ g, f = g + 1 := ⟨f - 1, by omega⟩
                    rw [hstep, hse]
                    simp only
                    rw [if_pos hu]
                    by_cases hkm : k < m
                    · obtain ⟨j, hj⟩ := u4 k hkm
                      rw [hj]
                      exact ⟨by omega, fun _ => ⟨j, rfl⟩⟩
                    · rw [u3 k (by omega)]
                      simp only
                      rw [List.drop_take]
                      have := i3 g (k - m) (by
                        simp only [List.length_take, List.length_drop] at hf ⊢; omega)
                      exact ⟨fun hh => this.1 (by omega), fun hh => this.2 (by omega)⟩
              · rw [if_neg hu] at h; simp at h
        · have hstep : ∀ f l, decodeLoop (f + 1) (c :: l) i acc =
              if c < 32 then .error (.controlCharacterWhileParsingString, i)
              else decodeLoop f l (i + 1) (acc ++ [c]) := by
            intro f l
            rw [decodeLoop.eq_def]
            simp only [hq, hb, if_false]
          rw [hstep] at h
          by_cases hc : c < 32
          · rw [if_pos hc] at h; simp at h
          · rw [if_neg hc] at h
            obtain ⟨i1, i2, i3⟩ := ih _ _ _ _ _ h
            refine ⟨by omega, by simp; omega, ?_⟩
            intro f k hf
            cases k with
            | zero => exact ⟨by omega, fun _ => hnil f⟩
            | succ k =>
              simp only [List.take_succ_cons, List.length_cons] at hf ⊢
              obtain ⟨g, rfl⟩ : ∃ g, f = g + 1 := ⟨f - 1, by omega⟩
              rw [hstep, if_neg hc]
              have := i3 g k (by omega)
              exact ⟨fun hh => this.1 (by omega), fun hh => this.2 (by omega)⟩

theorem knownStr_prefix : PrefixFn knownStr := by
  intro d n v h
  simp only [knownStr, decodeString] at h
  cases hr : decodeLoop ((d.drop 1).length + 1) (d.drop 1) 0 [] with
  | error e => rw [hr] at h; simp [jerr] at h
  | ok r =>
    obtain ⟨s, m⟩ := r
    rw [hr] at h
    simp only at h
    by_cases hu : utf8Valid s = true
    · rw [if_pos hu] at h
      simp only [Prod.mk.injEq, Except.ok.injEq] at h
      obtain ⟨rfl, rfl⟩ := h
      obtain ⟨_, h2, h3⟩ := decodeLoop_prefix _ _ _ _ _ _ hr
      simp only [List.length_drop, Nat.sub_zero] at h2
      refine ⟨by omega, by omega, ?_, ?_⟩
      · intro k hk
        have := (h3 (((d.drop 1).take (k - 1)).length + 1) (k - 1) (by omega)).1 (by omega)
        simp only [knownStr, decodeString, List.drop_take, this, hu, if_true]
      · intro k hk
        obtain ⟨j, hj⟩ := (h3 (((d.drop 1).take (k - 1)).length + 1) (k - 1) (by omega)).2 (by omega)
        exact ⟨⟨.json .eofWhileParsingString, 1 + j⟩,
          by simp only [knownStr, decodeString, List.drop_take, hj, jerr], rfl⟩
    · rw [if_neg hu] at h; simp [jerr] at h

/-! ### Identifiers -/

theorem matchIdent_prefix : ∀ (rest d : Bytes) (i : Nat), matchIdent rest d i = none →
    rest.length ≤ d.length ∧ ∀ k, (rest.length ≤ k → matchIdent rest (d.take k) i = none) ∧
      (k < rest.length → ∃ j, matchIdent rest (d.take k) i = some (.eofWhileParsingValue, j)) := by
  intro rest
  induction rest with
  | nil => intro d i _; exact ⟨by simp, fun k => ⟨fun _ => by simp [matchIdent], by simp⟩⟩
  | cons r rs ih =>
    intro d i h
    cases d with
    | nil => simp [matchIdent] at h
    | cons c cs =>
      simp only [matchIdent] at h
      by_cases hrc : r = c
      · rw [if_pos hrc] at h
        obtain ⟨h1, h2⟩ := ih cs (i + 1) h
        refine ⟨by simp; omega, ?_⟩
        intro k
        cases k with
        | zero => exact ⟨by simp, fun _ => ⟨i, by simp [matchIdent]⟩⟩
        | succ k =>
          rw [List.take_succ_cons]
          simp only [matchIdent, hrc, if_true, List.length_cons]
          exact ⟨fun hh => (h2 k).1 (by omega), fun hh => (h2 k).2 (by omega)⟩
      · rw [if_neg hrc] at h; simp at h

theorem consumeIdent_prefix {α : Type} (rest : Bytes) (hr : rest ≠ []) (v : α) : PrefixFn (consumeIdent rest v) := by
  intro d n w h
  have hrl : 0 < rest.length := List.length_pos_iff.mpr hr
  simp only [consumeIdent] at h
  cases hm : matchIdent rest (d.drop 1) 1 with
  | some e => rw [hm] at h; simp [jerr] at h
  | none =>
    rw [hm] at h
    simp only [Prod.mk.injEq, Except.ok.injEq] at h
    obtain ⟨rfl, rfl⟩ := h
    obtain ⟨h1, h2⟩ := matchIdent_prefix _ _ _ hm
    simp only [List.length_drop] at h1
    refine ⟨by omega, by omega, ?_, ?_⟩
    · intro k hk
      simp only [consumeIdent, List.drop_take, (h2 (k - 1)).1 (by omega)]
    · intro k hk
      obtain ⟨j, hj⟩ := (h2 (k - 1)).2 (by omega)
      exact ⟨⟨.json .eofWhileParsingValue, j⟩, by simp only [consumeIdent, List.drop_take, hj, jerr], rfl⟩

theorem knownNull_prefix : PrefixFn knownNull := consumeIdent_prefix _ (by simp) _

theorem knownBool_prefix (pk : Byte) : PrefixFn (knownBool pk) := by
  intro d n v h
  unfold knownBool at h ⊢
  by_cases h1 : pk = 116
  · simp only [if_pos h1] at h ⊢; exact consumeIdent_prefix _ (by simp) _ d n v h
  · by_cases h2 : pk = 102
    · simp only [if_neg h1, if_pos h2] at h ⊢; exact consumeIdent_prefix _ (by simp) _ d n v h
    · simp only [if_neg h1, if_neg h2] at h; simp at h

/-- A prefix function is good on its own. -/
theorem PrefixFn.good {α : Type} {known : JFn α} (hk : PrefixFn known) {d : Bytes} {n : Nat} {v : α}
    (h : known d = (n, .ok v)) : Good known false d n v n := by
  obtain ⟨_, h1, h2, h3⟩ := hk d n v h
  refine ⟨h1, Nat.le_refl _, by simp, fun k hkk _ => h2 k hkk, ?_⟩
  intro k hkk
  obtain ⟨e, he, hr⟩ := h3 k hkk
  rw [he]; exact hr

end Jiter

end Verif.RJiter
