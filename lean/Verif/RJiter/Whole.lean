import Verif.RJiter.Calls
import Verif.RJiter.NumEnd
import Verif.RJiter.JiterValue

/-!
# The functions that read a whole value: contracts

`Fits` is `Good` for a function that may stop in the middle of a value: what such an attempt leaves behind is nothing, or
the start of an atom, so that another attempt to read a value there asks for more input as well.
-/

namespace Verif.RJiter

open Buffer RJ Jiter

namespace Jiter

section
variable {α : Type} (D : Decoders) (B : Build α)

/-- A value behind whitespace, with explicit fuel and depth. -/
def nextAt (fuel depth : Nat) : JFn α := peek.bind (value D B fuel depth)

/-- Another attempt on `l` asks for more. -/
def Left (l : Bytes) : Prop := ∀ fuel depth, Retry true l.length (nextAt D B (fuel + 1) depth l)

/-- `f` does not get far enough on the first `k` bytes of `r`. -/
def Cut {β : Type} (f : JFn β) (r : Bytes) (k : Nat) : Prop :=
  match f (r.take k) with
  | (m, .error e) => canRetry e.type = true ∧ Left D B ((r.take k).drop m)
  | (m, .ok _) => k ≤ m

/-- `f` reads `n` bytes of `r` and looks at `need` of them; with less than that it asks for more. -/
structure Fits {β : Type} (f : JFn β) (r : Bytes) (n need : Nat) (v : β) : Prop where
  fits : need ≤ r.length
  moved : n ≤ need
  enough : ∀ k, need ≤ k → f (r.take k) = (n, .ok v)
  short : ∀ k, k < need → Cut D B f r k

end

variable {α β γ : Type} {D : Decoders} {B : Build α}

theorem left_nil : Left D B [] := by intro fuel depth; exact rfl

theorem bind_error {f : JFn β} {g : β → JFn γ} {d : Bytes} {n : Nat} {e : JErr} (h : f d = (n, .error e)) :
    f.bind g d = (n, .error e) := by simp only [JFn.bind, h]

theorem bind_ok {f : JFn β} {g : β → JFn γ} {d : Bytes} {n m : Nat} {v : β} {w : γ} (h : f d = (n, .ok v))
    (h2 : g v (d.drop n) = (m, .ok w)) : f.bind g d = (n + m, .ok w) := by simp only [JFn.bind, h, h2]

theorem bind_ok_error {f : JFn β} {g : β → JFn γ} {d : Bytes} {n m : Nat} {v : β} {e : JErr} (h : f d = (n, .ok v))
    (h2 : g v (d.drop n) = (m, .error e)) : f.bind g d = (n + m, .error ⟨e.type, n + e.index⟩) := by
  simp only [JFn.bind, h, h2]

theorem bind_askNil {f : JFn β} (g : β → JFn γ) (h : AskNil f) : AskNil (f.bind g) := by
  obtain ⟨m, e, h1, h2⟩ := h
  exact ⟨m, e, bind_error h1, h2⟩

theorem Fits.of_good {f : JFn β} {eager : Bool} {r : Bytes} {n need : Nat} {v : β} (hg : Good f eager r n v need)
    (hs : ∀ k, k < need → Cut D B f r k) : Fits D B f r n need v := by
  refine ⟨hg.fits, hg.moved, ?_, hs⟩
  intro k hk
  by_cases hkl : k ≤ r.length
  · exact hg.enough k hk hkl
  · have := hg.enough r.length hg.fits (Nat.le_refl _)
    rw [List.take_of_length_le (Nat.le_refl _)] at this
    rw [List.take_of_length_le (by omega)]; exact this

/-- A short attempt that moves to the end leaves nothing. -/
theorem Cut.of_end {f : JFn β} {r : Bytes} {k m : Nat} {e : JErr} (h : f (r.take k) = (m, .error e))
    (hr : canRetry e.type = true) (hm : k ≤ m) : Cut D B f r k := by
  simp only [Cut, h]
  refine ⟨hr, ?_⟩
  rw [List.drop_eq_nil_of_le (by simp; omega)]
  exact left_nil

theorem Fits.bind {f : JFn β} {g : β → JFn γ} {r : Bytes} {n need m need' : Nat} {v : β} {w : γ}
    (hf : Fits D B f r n need v) (hg : Fits D B (g v) (r.drop n) m need' w) (hle : need ≤ n + need')
    (hnil : ∀ k, k < need → ∀ m v', f (r.take k) = (m, .ok v') → AskNil (g v')) :
    Fits D B (f.bind g) r (n + m) (n + need') w := by
  have h1 := hg.fits
  have h2 := hf.fits
  have h3 := hf.moved
  have h4 := hg.moved
  rw [List.length_drop] at h1
  refine ⟨by omega, by omega, ?_, ?_⟩
  · intro k hk
    refine bind_ok (hf.enough k (by omega)) ?_
    rw [List.drop_take]
    exact hg.enough (k - n) (by omega)
  · intro k hk
    by_cases hkn : k < need
    · have hc := hf.short k hkn
      unfold Cut at hc ⊢
      rcases hfk : f (r.take k) with ⟨j, x⟩
      rw [hfk] at hc
      cases x with
      | error e => rw [bind_error hfk]; exact hc
      | ok v' =>
        obtain ⟨i, e, e1, e2⟩ := hnil k hkn j v' hfk
        simp only at hc
        rw [bind_ok_error hfk (by rw [List.drop_eq_nil_of_le (by simp; omega)]; exact e1)]
        refine ⟨e2, ?_⟩
        rw [List.drop_eq_nil_of_le (by simp; omega)]
        exact left_nil
    · have hfk := hf.enough k (by omega)
      have hc := hg.short (k - n) (by omega)
      unfold Cut at hc ⊢
      rw [← List.drop_take] at hc
      rcases hgk : g v ((r.take k).drop n) with ⟨j, x⟩
      rw [hgk] at hc
      cases x with
      | error e =>
        rw [bind_ok_error hfk hgk]
        refine ⟨hc.1, ?_⟩
        rw [← List.drop_drop]; exact hc.2
      | ok v' =>
        rw [bind_ok hfk hgk]
        simp only at hc ⊢
        omega

theorem Fits.pure (r : Bytes) (v : β) : Fits D B (JFn.pure v) r 0 0 v :=
  ⟨by omega, by omega, fun _ _ => rfl, fun _ h => absurd h (by omega)⟩

theorem Fits.map {f : JFn β} (g : β → γ) {r : Bytes} {n : Nat} {v : β}
    (hf : Fits D B f r n n v) : Fits D B (f.map g) r n n (g v) := by
  refine ⟨hf.fits, by omega, ?_, ?_⟩
  · intro k hk; exact bind_ok (m := 0) (hf.enough k hk) rfl
  · intro k hk
    have hc := hf.short k hk
    unfold Cut at hc ⊢
    rcases hfk : f (r.take k) with ⟨j, x⟩
    rw [hfk] at hc
    cases x with
    | error e => rw [JFn.map, bind_error hfk]; exact hc
    | ok v' => rw [JFn.map, bind_ok (m := 0) hfk rfl]; exact hc

/-! ### The first byte -/

theorem value_null (fuel depth : Nat) : value D B (fuel + 1) depth 110 = knownNull.map fun _ => B.null := rfl
theorem value_true (fuel depth : Nat) : value D B (fuel + 1) depth 116 = (knownBool 116).map B.bool := rfl
theorem value_false (fuel depth : Nat) : value D B (fuel + 1) depth 102 = (knownBool 102).map B.bool := rfl
theorem value_str (fuel depth : Nat) : value D B (fuel + 1) depth 34 = D.str.map B.str := rfl
theorem value_num (fuel depth : Nat) {pk : Byte} (h : pk = 45 ∨ isDigit pk = true) :
    value D B (fuel + 1) depth pk = D.num.map B.num := by
  have h1 : pk ≠ 110 ∧ ¬ (pk = 116 ∨ pk = 102) ∧ pk ≠ 34 ∧ pk ≠ 91 ∧ pk ≠ 123 := by
    refine ⟨?_, ?_, ?_, ?_, ?_⟩
    · rintro rfl; revert h; decide
    · rintro (rfl | rfl) <;> revert h <;> decide
    · rintro rfl; revert h; decide
    · rintro rfl; revert h; decide
    · rintro rfl; revert h; decide
  obtain ⟨a, b, c, d, e⟩ := h1
  simp only [value, if_neg a, if_neg b, if_neg c, if_neg d, if_neg e, if_pos h]
theorem value_arr (fuel depth : Nat) : value D B (fuel + 1) depth 91 = knownArray.bind fun
      | none => .pure (B.arr [])
      | some c => if depth = 0 then .fail .recursionLimitExceeded else (items D B fuel (depth - 1) c).map B.arr := rfl
theorem value_obj (fuel depth : Nat) : value D B (fuel + 1) depth 123 = (knownObject D.str).bind fun
      | none => .pure (B.obj [])
      | some k => if depth = 0 then .fail .recursionLimitExceeded else (members D B fuel (depth - 1) k).map B.obj := rfl

/-! ### Tokens -/

theorem peek_fits {ws : Bytes} (hw : Ws ws) {c : Byte} (hc : isWs c = false) (t : Bytes) :
    Fits D B peek (ws ++ c :: t) ws.length (ws.length + 1) c := by
  refine ⟨by simp, by omega, ?_, ?_⟩
  · intro k hk
    rcases take_ws ws c t k with ⟨h1, e⟩ | ⟨h1, e⟩
    · omega
    · rw [e, peek_tok hw hc]
  · intro k hk
    rcases take_ws ws c t k with ⟨h1, e⟩ | ⟨h1, e⟩
    · exact Cut.of_end (by rw [e, peek_ws (Ws.take hw k)]) rfl (by simp; omega)
    · omega

theorem knownArray_fits (x : Byte) {ws : Bytes} (hw : Ws ws) {c : Byte} (hc : isWs c = false) (t : Bytes) :
    Fits D B knownArray (x :: (ws ++ c :: t)) (if c = 93 then 1 + ws.length + 1 else 1 + ws.length) (1 + ws.length + 1)
      (if c = 93 then none else some c) := by
  refine .of_good (knownArray_good x hw hc t) ?_
  intro k hk
  cases k with
  | zero => exact Cut.of_end knownArray_nil rfl (by omega)
  | succ k =>
    rcases take_ws ws c t k with ⟨h1, e⟩ | ⟨h1, e⟩
    · exact Cut.of_end (by rw [List.take_succ_cons, e, knownArray_ws x (Ws.take hw k)]) rfl (by simp; omega)
    · omega

theorem knownArray_fits_end (x : Byte) {ws : Bytes} (hw : Ws ws) (t : Bytes) :
    Fits D B knownArray (x :: (ws ++ 93 :: t)) (1 + ws.length + 1) (1 + ws.length + 1) none :=
  knownArray_fits x hw (c := 93) (by decide) t

theorem knownArray_fits_item (x : Byte) {ws : Bytes} (hw : Ws ws) {c : Byte} (hc : isWs c = false) (h93 : c ≠ 93) (t : Bytes) :
    Fits D B knownArray (x :: (ws ++ c :: t)) (1 + ws.length) (1 + ws.length + 1) (some c) := by
  have := knownArray_fits (D := D) (B := B) x hw hc t
  rwa [if_neg h93, if_neg h93] at this

theorem arrayStep_fits_end {ws : Bytes} (hw : Ws ws) (t : Bytes) :
    Fits D B arrayStep (ws ++ 93 :: t) (ws.length + 1) (ws.length + 1) none := by
  refine .of_good (arrayStep_skips.good hw (by decide) (arrayStep_good_end t) (by omega)) ?_
  intro k hk
  rcases take_ws ws 93 t k with ⟨h1, e⟩ | ⟨h1, e⟩
  · exact Cut.of_end (by rw [e, arrayStep_ws (Ws.take hw k)]) rfl (by simp; omega)
  · omega

theorem arrayStep_comma_ws {ws ws2 : Bytes} (hw : Ws ws) (hw2 : Ws ws2) :
    arrayStep (ws ++ 44 :: ws2) = jerr (ws.length + 1 + ws2.length) .eofWhileParsingValue (ws.length + 1 + ws2.length) := by
  rw [arrayStep_tok hw (by decide), if_pos rfl, wsLen_all hw2, List.drop_length]

theorem arrayStep_fits_item {ws ws2 : Bytes} (hw : Ws ws) (hw2 : Ws ws2) {c : Byte} (hc : isWs c = false) (h93 : c ≠ 93)
    (t : Bytes) : Fits D B arrayStep (ws ++ 44 :: (ws2 ++ c :: t)) (ws.length + (1 + ws2.length)) (ws.length + (1 + ws2.length + 1))
      (some c) := by
  refine .of_good (arrayStep_skips.good hw (by decide) (arrayStep_good_comma hw2 hc h93 t) (by omega)) ?_
  intro k hk
  rcases take_ws ws 44 (ws2 ++ c :: t) k with ⟨h1, e⟩ | ⟨h1, e⟩
  · exact Cut.of_end (by rw [e, arrayStep_ws (Ws.take hw k)]) rfl (by simp; omega)
  · rcases take_ws ws2 c t (k - ws.length - 1) with ⟨h2, e2⟩ | ⟨h2, e2⟩
    · exact Cut.of_end (by rw [e, e2, arrayStep_comma_ws hw (Ws.take hw2 _)]; rfl) rfl (by simp; omega)
    · omega

/-- A key and its colon, cut: inside the key nothing is read, behind it everything. -/
theorem objectKey_short {known : JFn Bytes} (hk : PrefixFn known) {d : Bytes} {n : Nat} {v : Bytes}
    (h : objectKey known d = (n, .ok v)) {k : Nat} (hkn : k < n) :
    ∃ m e, objectKey known (d.take k) = (m, .error e) ∧ canRetry e.type = true ∧
      (k ≤ m ∨ m = 0 ∧ ∃ e, known (d.take k) = (0, .error e) ∧ canRetry e.type = true) := by
  obtain ⟨_, _, _, h4⟩ := objectKey_prefix hk h
  obtain ⟨m, e, h5, h6, h7⟩ := h4 k hkn
  refine ⟨m, e, h5, h6, ?_⟩
  rcases h7 with rfl | h7
  · cases hkd : known (d.take k) with
    | mk j x =>
      cases x with
      | ok w =>
        have h2 := (hk _ _ _ hkd).1
        simp only [objectKey, hkd] at h5
        split at h5
        · simp only [jerr, Prod.mk.injEq] at h5; omega
        · split at h5
          · simp at h5
          · simp only [jerr, Prod.mk.injEq] at h5; omega
      | error e' =>
        simp only [objectKey, hkd, Prod.mk.injEq] at h5
        obtain ⟨rfl, h5⟩ := h5
        injection h5 with h5
        subst h5
        exact .inr ⟨rfl, _, rfl, h6⟩
  · exact .inl h7

/-- The start of a string. -/
theorem left_string {t : Bytes} {e : JErr} (h : D.str (34 :: t) = (0, .error e)) (hr : canRetry e.type = true) :
    Left D B (34 :: t) := by
  intro fuel depth
  have hp : peek (34 :: t) = (0, .ok 34) := by simpa using peek_tok Ws.nil (c := 34) (by decide) t
  have hv : value D B (fuel + 1) depth 34 (34 :: t) = (0, .error e) := by
    rw [value_str]
    exact bind_error h
  rw [nextAt, bind_ok_error hp hv]
  exact hr

theorem knownObject_fits_end (known : JFn Bytes) (x : Byte) {ws : Bytes} (hw : Ws ws) (t : Bytes) :
    Fits D B (knownObject known) (x :: (ws ++ 125 :: t)) (1 + ws.length + 1) (1 + ws.length + 1) none := by
  refine .of_good (knownObject_good_end known x hw t) ?_
  intro k hk
  cases k with
  | zero => exact Cut.of_end (m := 1) (e := ⟨.json .eofWhileParsingObject, 1⟩) rfl rfl (by omega)
  | succ k =>
    rcases take_ws ws 125 t k with ⟨h1, e⟩ | ⟨h1, e⟩
    · exact Cut.of_end (by rw [List.take_succ_cons, e, knownObject_ws known x (Ws.take hw k)]) rfl (by simp; omega)
    · omega

theorem knownObject_fits_key (hk : PrefixFn D.str) (x : Byte) {ws : Bytes} (hw : Ws ws) (t : Bytes) {n : Nat} {v : Bytes}
    (hn : objectKey D.str (34 :: t) = (n, .ok v)) :
    Fits D B (knownObject D.str) (x :: (ws ++ 34 :: t)) (1 + ws.length + n) (1 + ws.length + n) (some v) := by
  refine .of_good (knownObject_good_key hk x hw t hn) ?_
  intro k hkk
  cases k with
  | zero => exact Cut.of_end (m := 1) (e := ⟨.json .eofWhileParsingObject, 1⟩) rfl rfl (by omega)
  | succ k =>
    rcases take_ws ws 34 t k with ⟨h1, e⟩ | ⟨h1, e⟩
    · exact Cut.of_end (by rw [List.take_succ_cons, e, knownObject_ws D.str x (Ws.take hw k)]) rfl (by simp; omega)
    · obtain ⟨m, er, he, hr, hcase⟩ := objectKey_short hk hn (k := k - ws.length) (by omega)
      rw [show k - ws.length = (k - ws.length - 1) + 1 by omega, List.take_succ_cons] at he hcase
      have hres : knownObject D.str ((x :: (ws ++ 34 :: t)).take (k + 1)) =
          (1 + ws.length + m, .error ⟨er.type, 1 + ws.length + er.index⟩) := by
        rw [List.take_succ_cons, e, knownObject_tok D.str x hw (by decide), if_pos rfl, he]
      rcases hcase with hm | ⟨rfl, e', he', hr'⟩
      · exact Cut.of_end hres hr (by omega)
      · simp only [Cut, hres]
        refine ⟨hr, ?_⟩
        have : ((x :: (ws ++ 34 :: t)).take (k + 1)).drop (1 + ws.length + 0) = 34 :: t.take (k - ws.length - 1) := by
          rw [List.take_succ_cons, e, Nat.add_zero, Nat.add_comm 1, List.drop_succ_cons, List.drop_left]
        rw [this]
        exact left_string he' hr'

theorem nextKey_fits_end (known : JFn Bytes) {ws : Bytes} (hw : Ws ws) (t : Bytes) :
    Fits D B (nextKey known) (ws ++ 125 :: t) (ws.length + 1) (ws.length + 1) none := by
  refine .of_good ((nextKey_skips known).good hw (by decide) (nextKey_good_end known t) (by omega)) ?_
  intro k hk
  rcases take_ws ws 125 t k with ⟨h1, e⟩ | ⟨h1, e⟩
  · exact Cut.of_end (by rw [e, nextKey_ws known (Ws.take hw k)]) rfl (by simp; omega)
  · omega

theorem nextKey_fits_key (hk : PrefixFn D.str) {ws ws2 : Bytes} (hw : Ws ws) (hw2 : Ws ws2) (t : Bytes) {n : Nat} {v : Bytes}
    (hn : objectKey D.str (34 :: t) = (n, .ok v)) :
    Fits D B (nextKey D.str) (ws ++ 44 :: (ws2 ++ 34 :: t)) (ws.length + (1 + ws2.length + n)) (ws.length + (1 + ws2.length + n))
      (some v) := by
  refine .of_good ((nextKey_skips D.str).good hw (by decide) (nextKey_good_key hk hw2 t hn) (by omega)) ?_
  intro k hkk
  rcases take_ws ws 44 (ws2 ++ 34 :: t) k with ⟨h1, e⟩ | ⟨h1, e⟩
  · exact Cut.of_end (by rw [e, nextKey_ws D.str (Ws.take hw k)]) rfl (by simp; omega)
  · rcases take_ws ws2 34 t (k - ws.length - 1) with ⟨h2, e2⟩ | ⟨h2, e2⟩
    · refine Cut.of_end (m := ws.length + 1 + (ws2.take (k - ws.length - 1)).length)
        (e := ⟨.json .eofWhileParsingValue, ws.length + 1 + (ws2.take (k - ws.length - 1)).length⟩) ?_ rfl (by simp; omega)
      rw [e, e2, nextKey_tok D.str hw (by decide), if_pos rfl, wsLen_all (Ws.take hw2 _), List.drop_length]
      rfl
    · obtain ⟨m, er, he, hr, hcase⟩ := objectKey_short hk hn (k := k - ws.length - 1 - ws2.length) (by omega)
      obtain ⟨j, hj⟩ : ∃ j, k - ws.length - 1 - ws2.length = j + 1 := ⟨k - ws.length - 1 - ws2.length - 1, by omega⟩
      rw [hj, List.take_succ_cons] at he hcase
      rw [show k - ws.length - 1 - ws2.length - 1 = j by omega] at e2
      have hres : nextKey D.str ((ws ++ 44 :: (ws2 ++ 34 :: t)).take k) =
          (ws.length + 1 + ws2.length + m, .error ⟨er.type, ws.length + 1 + ws2.length + er.index⟩) := by
        rw [e, e2, nextKey_tok D.str hw (by decide), if_pos rfl, wsLen_cons hw2 (by decide), List.drop_left]
        simp only [if_true, he]
      rcases hcase with hm | ⟨rfl, e', he', hr'⟩
      · exact Cut.of_end hres hr (by omega)
      · simp only [Cut, hres]
        refine ⟨hr, ?_⟩
        have : ((ws ++ 44 :: (ws2 ++ 34 :: t)).take k).drop (ws.length + 1 + ws2.length + 0) = 34 :: t.take j := by
          rw [e, e2, Nat.add_zero, Nat.add_assoc, ← List.drop_drop, List.drop_left, Nat.add_comm 1, List.drop_succ_cons,
            List.drop_left]
        rw [this]
        exact left_string he' hr'

end Jiter

end Verif.RJiter
