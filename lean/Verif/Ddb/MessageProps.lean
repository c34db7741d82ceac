import Verif.Ddb.Said
import Verif.Ddb.CliProps
import Verif.Scan.Props

/-!
# Property C96: what `ddb_convert` writes to the standard error
-/

namespace Verif.Ddb

open Verif.U8Pool (Pool)
open Verif.RJiter (RJ Reader Err ErrType)
open Verif.RJiter.Jiter (isCont utf8Valid)
open Verif.Scan

/-! ## Specification -/

/-- One line: no control character below the space but the newline at the end. -/
def OneLine (m : Bytes) : Prop := ∃ l, m = l ++ [10] ∧ Clear l

/-- A digit. -/
def isDigit (c : Byte) : Bool := 48 ≤ c && c ≤ 57

/-- The number that a reader of the message finds behind the first 18 characters. -/
def positionIn (m : Bytes) : Nat := ((m.drop 18).takeWhile isDigit).foldl (fun n c => 10 * n + (c.toNat - 48)) 0

/-- The foreign texts have no control characters, and at most `L` bytes. -/
structure Texts.Within (T : Texts) (L : Nat) : Prop where
  json : ∀ e, Clear (T.json e) ∧ (T.json e).length ≤ L
  jsonDebug : ∀ e, Clear (T.jsonDebug e) ∧ (T.jsonDebug e).length ≤ L
  types : Clear T.types ∧ T.types.length ≤ L
  typesDebug : Clear T.typesDebug ∧ T.typesDebug.length ≤ L
  kind : ∀ k, Clear (T.kind k) ∧ (T.kind k).length ≤ L
  kindDebug : ∀ k, Clear (T.kindDebug k) ∧ (T.kindDebug k).length ≤ L
  peek : ∀ c, Clear (T.peek c) ∧ (T.peek c).length ≤ L

/-! ## Numbers -/

theorem digit_toNat {n : Nat} (h : n < 10) : (UInt8.ofNat (48 + n)).toNat = 48 + n := by
  rw [UInt8.toNat_ofNat']; omega

theorem digit_clear {n : Nat} (h : n < 10) : 32 ≤ UInt8.ofNat (48 + n) ∧ isDigit (UInt8.ofNat (48 + n)) = true := by
  have := digit_toNat h
  simp only [isDigit, Bool.and_eq_true, decide_eq_true_eq, UInt8.le_iff_toNat_le, this]
  refine ⟨?_, ?_, ?_⟩ <;> simp <;> omega

theorem decimal_spec : ∀ (k n : Nat), n ≤ k → (∀ c ∈ decimal n, 32 ≤ c ∧ isDigit c = true) ∧
    (decimal n).foldl (fun n c => 10 * n + (c.toNat - 48)) 0 = n := by
  intro k
  induction k with
  | zero =>
    intro n hn
    rw [Nat.le_zero.mp hn]
    exact ⟨by decide +kernel, by decide +kernel⟩
  | succ k ih =>
    intro n hn
    rw [decimal]
    split
    · rename_i h
      have h1 := digit_clear h
      have h2 := digit_toNat h
      refine ⟨by intro c hc; rw [List.mem_singleton.mp hc]; exact h1, ?_⟩
      simp only [List.foldl_cons, List.foldl_nil, h2]
      omega
    · rename_i h
      obtain ⟨i1, i2⟩ := ih (n / 10) (by omega)
      have hm : n % 10 < 10 := Nat.mod_lt _ (by omega)
      have h1 := digit_clear hm
      have h2 := digit_toNat hm
      refine ⟨?_, ?_⟩
      · intro c hc
        rcases List.mem_append.mp hc with hc | hc
        · exact i1 c hc
        · rw [List.mem_singleton.mp hc]; exact h1
      · rw [List.foldl_append, i2]
        simp only [List.foldl_cons, List.foldl_nil, h2]
        omega

theorem decimal_clear (n : Nat) : Clear (decimal n) := fun c hc => ((decimal_spec n n (Nat.le_refl _)).1 c hc).1

theorem decimal_length : ∀ (k n : Nat), n < 10 ^ (k + 1) → (decimal n).length ≤ k + 1 := by
  intro k
  induction k with
  | zero =>
    intro n hn
    rw [decimal, if_pos (by simpa using hn)]
    simp
  | succ k ih =>
    intro n hn
    rw [decimal]
    split
    · simp
    · have : n / 10 < 10 ^ (k + 1) := by
        rw [Nat.pow_succ] at hn
        omega
      have := ih _ this
      simp only [List.length_append, List.length_cons, List.length_nil]
      omega

/-! ## `from_utf8_lossy` -/

theorem replacement_clear : Clear replacement := by decide

theorem clear_append {a b : Bytes} (ha : Clear a) (hb : Clear b) : Clear (a ++ b) := fun c hc => (List.mem_append.mp hc).elim (ha c) (hb c)

theorem clear_cons {c : Byte} {b : Bytes} (ha : 32 ≤ c) (hb : Clear b) : Clear (c :: b) := fun d hd => by
  rcases List.mem_cons.mp hd with rfl | hd
  · exact ha
  · exact hb d hd

/-- What is said of `lossy`. -/
def Mended (bs out : Bytes) : Prop :=
  out.length ≤ 3 * bs.length ∧ (Clear bs → Clear out) ∧ utf8Valid out = true ∧ (utf8Valid bs = true → out = bs)

theorem valid_replacement (r : Bytes) : utf8Valid (replacement ++ r) = utf8Valid r := by
  simp only [replacement, List.cons_append, List.nil_append]
  rw [utf8Valid]
  simp [isCont]

theorem mended_bad {bs : Bytes} (pre tail : Bytes) (hb : bs = pre ++ tail) (hp : pre ≠ []) {out : Bytes} (h : Mended tail out) (hv : utf8Valid bs = false) :
    Mended bs (replacement ++ out) := by
  obtain ⟨h1, h2, h3, _⟩ := h
  have : 0 < pre.length := List.length_pos_iff.mpr hp
  refine ⟨?_, ?_, ?_, ?_⟩
  · rw [hb]; simp only [List.length_append, replacement, List.length_cons, List.length_nil]; omega
  · intro hc
    exact clear_append replacement_clear (h2 fun c hc' => hc c (by rw [hb]; exact List.mem_append_right _ hc'))
  · rw [valid_replacement]; exact h3
  · rw [hv]; simp

theorem mended_good {bs : Bytes} (pre tail : Bytes) (hb : bs = pre ++ tail) {out : Bytes} (h : Mended tail out)
    (hv : ∀ r, utf8Valid (pre ++ r) = utf8Valid r) : Mended bs (pre ++ out) := by
  obtain ⟨h1, h2, h3, h4⟩ := h
  subst hb
  refine ⟨?_, ?_, ?_, ?_⟩
  · simp only [List.length_append]; omega
  · intro hc
    exact clear_append (fun c hc' => hc c (List.mem_append_left _ hc')) (h2 fun c hc' => hc c (List.mem_append_right _ hc'))
  · rw [hv]; exact h3
  · rw [hv]; intro h; rw [h4 h]

theorem mended_nil : Mended [] [] := by simp [Mended, utf8Valid, Clear]

theorem mended_end {bs : Bytes} (hp : bs ≠ []) (hv : utf8Valid bs = false) : Mended bs replacement := by
  have := mended_bad bs [] (by simp) hp mended_nil hv
  simpa using this

theorem lossy_spec : ∀ (k : Nat) (bs : Bytes), bs.length ≤ k → Mended bs (lossy bs) := by
  intro k
  induction k with
  | zero =>
    intro bs hl
    rw [List.length_eq_zero_iff.mp (Nat.le_zero.mp hl)]
    simpa [lossy] using mended_nil
  | succ k ih =>
    intro bs hl
    cases bs with
    | nil => simpa [lossy] using mended_nil
    | cons a r =>
      simp only [List.length_cons] at hl
      rw [lossy.eq_def]
      simp only
      split
      · rename_i h1
        exact mended_good [a] r rfl (ih r (by omega)) (by intro r; show utf8Valid (a :: r) = _; rw [utf8Valid.eq_def]; simp [h1])
      rename_i h1
      split
      · rename_i h2
        cases r with
        | nil => exact mended_end (by simp) (by simp [utf8Valid, h1, h2])
        | cons b r1 =>
          simp only [List.length_cons] at hl
          simp only
          split
          · rename_i h3
            exact mended_good [a, b] r1 rfl (ih r1 (by omega)) (by intro r; simp [utf8Valid, h1, h2, h3])
          · rename_i h3
            exact mended_bad [a] (b :: r1) rfl (by simp) (ih _ (by simp; omega)) (by simp [utf8Valid, h1, h2, h3])
      rename_i h2
      split
      · rename_i h3
        cases r with
        | nil => exact mended_end (by simp) (by simp [utf8Valid, h1, h2, h3])
        | cons b r1 =>
          simp only [List.length_cons] at hl
          simp only
          split
          · rename_i h4
            cases r1 with
            | nil => exact mended_end (by simp) (by simp [utf8Valid, h1, h2, h3])
            | cons c r2 =>
              simp only [List.length_cons] at hl
              simp only
              split
              · rename_i h5
                exact mended_good [a, b, c] r2 rfl (ih r2 (by omega)) (by
                  intro r
                  simp only [secondOk, Bool.and_eq_true] at h4
                  simp [utf8Valid, h1, h2, h3, h5, h4])
              · rename_i h5
                exact mended_bad [a, b] (c :: r2) rfl (by simp) (ih _ (by simp; omega)) (by simp [utf8Valid, h1, h2, h3, h5])
          · rename_i h4
            refine mended_bad [a] (b :: r1) rfl (by simp) (ih _ (by simp; omega)) ?_
            cases r1 with
            | nil => simp [utf8Valid, h1, h2, h3]
            | cons c r2 =>
              rw [Bool.not_eq_true] at h4
              simp only [secondOk] at h4
              have e4 : (a != 0xF0) = true ∧ (a != 0xF4) = true := by
                simp only [Bool.and_eq_true, decide_eq_true_eq] at h3
                refine ⟨?_, ?_⟩ <;> simp only [bne_iff_ne, ne_eq] <;> rintro rfl <;> revert h3 <;> decide
              rw [e4.1, e4.2] at h4
              simp only [Bool.true_or, Bool.and_true] at h4
              rw [utf8Valid.eq_def]
              show (if a < 0x80 then _ else _) = _
              rw [if_neg h1, if_neg h2, if_pos h3]
              simp only [Bool.and_eq_false_imp, Bool.and_eq_true, and_imp] at h4
              show (isCont b && isCont c && (a != 224 || decide (160 ≤ b)) && (a != 237 || decide (b < 160)) && utf8Valid r2) = false
              simp only [Bool.and_eq_false_imp, Bool.and_eq_true, and_imp]
              intro g1 g2 g3 g4
              exact absurd (h4 g1 g3) (by simp only [g4]; simp)
      rename_i h3
      split
      · rename_i h4
        cases r with
        | nil => exact mended_end (by simp) (by simp [utf8Valid, h1, h2, h3, h4])
        | cons b r1 =>
          simp only [List.length_cons] at hl
          simp only
          split
          · rename_i h5
            cases r1 with
            | nil => exact mended_end (by simp) (by simp [utf8Valid, h1, h2, h3, h4])
            | cons c r2 =>
              simp only [List.length_cons] at hl
              simp only
              split
              · rename_i h6
                cases r2 with
                | nil => exact mended_end (by simp) (by simp [utf8Valid, h1, h2, h3, h4])
                | cons d r3 =>
                  simp only [List.length_cons] at hl
                  simp only
                  split
                  · rename_i h7
                    exact mended_good [a, b, c, d] r3 rfl (ih r3 (by omega)) (by
                      intro r
                      simp only [secondOk, Bool.and_eq_true] at h5
                      simp [utf8Valid, h1, h2, h3, h4, h5, h6, h7])
                  · rename_i h7
                    exact mended_bad [a, b, c] (d :: r3) rfl (by simp) (ih _ (by simp; omega)) (by simp [utf8Valid, h1, h2, h3, h4, h7])
              · rename_i h6
                refine mended_bad [a, b] (c :: r2) rfl (by simp) (ih _ (by simp; omega)) ?_
                cases r2 with
                | nil => simp [utf8Valid, h1, h2, h3, h4]
                | cons d r3 => simp [utf8Valid, h1, h2, h3, h4, h6]
          · rename_i h5
            refine mended_bad [a] (b :: r1) rfl (by simp) (ih _ (by simp; omega)) ?_
            rcases r1 with _ | ⟨c, _ | ⟨d, r3⟩⟩
            · simp [utf8Valid, h1, h2, h3, h4]
            · simp [utf8Valid, h1, h2, h3, h4]
            · rw [Bool.not_eq_true] at h5
              simp only [secondOk] at h5
              have e4 : (a != 0xE0) = true ∧ (a != 0xED) = true := by
                simp only [Bool.and_eq_true, decide_eq_true_eq] at h4
                refine ⟨?_, ?_⟩ <;> simp only [bne_iff_ne, ne_eq] <;> rintro rfl <;> revert h4 <;> decide
              rw [e4.1, e4.2] at h5
              simp only [Bool.true_or, Bool.and_true] at h5
              rw [utf8Valid.eq_def]
              show (if a < 0x80 then _ else _) = _
              rw [if_neg h1, if_neg h2, if_neg h3, if_pos h4]
              simp only [Bool.and_eq_false_imp, Bool.and_eq_true, and_imp] at h5
              show (isCont b && isCont c && isCont d && (a != 240 || decide (144 ≤ b)) && (a != 244 || decide (b < 144)) && utf8Valid r3) = false
              simp only [Bool.and_eq_false_imp, Bool.and_eq_true, and_imp]
              intro g1 g2 g3 g4 g5
              exact absurd (h5 g1 g4) (by simp only [g5]; simp)
      · rename_i h4
        exact mended_bad [a] r rfl (by simp) (ih r (by omega)) (by rw [utf8Valid.eq_def]; show (if a < 0x80 then _ else _) = _; rw [if_neg h1, if_neg h2, if_neg h3, if_neg h4])

/-! ## The texts -/

/-- No control characters, and at most `n` bytes. -/
def Bounded (n : Nat) (bs : Bytes) : Prop := Clear bs ∧ bs.length ≤ n

theorem Bounded.append {m n : Nat} {a b : Bytes} (ha : Bounded m a) (hb : Bounded n b) : Bounded (m + n) (a ++ b) :=
  ⟨clear_append ha.1 hb.1, by rw [List.length_append]; exact Nat.add_le_add ha.2 hb.2⟩

theorem Bounded.mono {m n : Nat} {a : Bytes} (ha : Bounded m a) (h : m ≤ n) : Bounded n a := ⟨ha.1, Nat.le_trans ha.2 h⟩

instance (n : Nat) (bs : Bytes) : Decidable (Bounded n bs) := inferInstanceAs (Decidable (_ ∧ _))

theorem decimal_bounded (n : Nat) : Bounded (decimal n).length (decimal n) := ⟨decimal_clear n, Nat.le_refl _⟩

theorem lossy_bounded {u : Bytes} (h1 : Clear u) (h2 : u.length ≤ 32) : Bounded 96 (lossy u) := by
  obtain ⟨a, b, _, _⟩ := lossy_spec u.length u (Nat.le_refl _)
  exact ⟨b h1, by omega⟩

variable {T : Texts} {L : Nat}

theorem errTypeText_bounded (hT : T.Within L) (e : ErrType) : Bounded (22 + L) (errTypeText T e) := by
  cases e with
  | json e => exact Bounded.append (m := 22) (by decide +kernel) (hT.json e)
  | wrongType => exact Bounded.append (m := 22) (by decide +kernel) hT.types
  | io k => exact Bounded.append (m := 22) (by decide +kernel) (hT.kind k)
  | bufferFull => exact (by decide +kernel : Bounded 22 (utf8 "buffer is full")).mono (by omega)

theorem errTypeDebug_bounded (hT : T.Within L) (e : ErrType) : Bounded (18 + L) (errTypeDebug T e) := by
  cases e with
  | json e => exact Bounded.mono (Bounded.append (m := 16 + L) (n := 2) (Bounded.append (m := 16) (by decide +kernel) (hT.jsonDebug e)) (by decide +kernel)) (by omega)
  | wrongType => exact Bounded.append (m := 18) (by decide +kernel) hT.typesDebug
  | io k => exact Bounded.mono (Bounded.append (m := 16 + L) (n := 2) (Bounded.append (m := 16) (by decide +kernel) (hT.kindDebug k)) (by decide +kernel)) (by omega)
  | bufferFull => exact (by decide +kernel : Bounded 18 (utf8 "BufferFull")).mono (by omega)

/-- The position that the text of an error of `scan` has. -/
def inner : SErr → Option Nat
  | .rjiter e => some e.index
  | .unhandledPeek _ p => some p
  | .unbalancedJson p => some p
  | .internal p _ => some p
  | .maxNesting p _ => some p
  | .action _ p => some p
  | .io _ => none

theorem scanText_bounded (hT : T.Within L) {e : SErr} (he : Worded Phrase 68 e) : Bounded (147 + L + (decimal ((inner e).getD 0)).length) (scanText T e) := by
  have hd := decimal_bounded
  cases e with
  | rjiter e =>
    exact Bounded.mono (((errTypeText_bounded hT e.type).append (by decide +kernel : Bounded 10 (utf8 " at index "))).append (hd _))
      (by simp only [inner, Option.getD_some]; omega)
  | unhandledPeek c p =>
    exact Bounded.mono ((((by decide +kernel : Bounded 15 (utf8 "UnhandledPeek: ")).append (hT.peek c)).append
      (by decide +kernel : Bounded 13 (utf8 " at position "))).append (hd _)) (by simp only [inner, Option.getD_some]; omega)
  | unbalancedJson p =>
    exact Bounded.mono ((by decide +kernel : Bounded 28 (utf8 "Unbalanced JSON at position ")).append (hd _)) (by simp only [inner, Option.getD_some]; omega)
  | internal p m =>
    have hm : Bounded 110 (utf8 m) := he
    exact Bounded.mono ((((by decide +kernel : Bounded 27 (utf8 "Internal error at position ")).append (hd _)).append
      (by decide +kernel : Bounded 2 (utf8 ": "))).append hm) (by simp only [inner, Option.getD_some]; omega)
  | maxNesting p level =>
    have hl : (decimal level).length ≤ 2 := decimal_length 1 level (by have : level ≤ 68 := he; omega)
    exact Bounded.mono ((((by decide +kernel : Bounded 33 (utf8 "Max nesting exceeded at position ")).append (hd _)).append
      (by decide +kernel : Bounded 12 (utf8 " with level "))).append (hd _)) (by simp only [inner, Option.getD_some]; omega)
  | action m p =>
    have hm : Bounded 110 (utf8 m) := he
    exact Bounded.mono ((((by decide +kernel : Bounded 14 (utf8 "Action error: ")).append hm).append
      (by decide +kernel : Bounded 13 (utf8 " at position "))).append (hd _)) (by simp only [inner, Option.getD_some]; omega)
  | io k => exact Bounded.mono ((by decide +kernel : Bounded 10 (utf8 "IO error: ")).append (hT.kind k)) (by omega)

theorem convText_bounded (hT : T.Within L) {e : ConvErr} (he : Proper e) : Bounded (248 + L) (convText T e) := by
  rcases e with ⟨k, c⟩ | ⟨k, c⟩ | ⟨c, _ | u⟩ | e
  · have hc : Bounded 110 (utf8 c) := he
    exact Bounded.mono (((((by decide +kernel : Bounded 14 (utf8 "RJiter error: ")).append (errTypeDebug_bounded hT k)).append
      (by decide +kernel : Bounded 8 (utf8 " (while "))).append hc).append (by decide +kernel : Bounded 1 (utf8 ")"))) (by omega)
  · have hc : Bounded 110 (utf8 c) := he
    exact Bounded.mono (((((by decide +kernel : Bounded 10 (utf8 "IO error: ")).append (hT.kindDebug k)).append
      (by decide +kernel : Bounded 8 (utf8 " (while "))).append hc).append (by decide +kernel : Bounded 1 (utf8 ")"))) (by omega)
  · have hc : Bounded 110 (utf8 c) := he
    exact Bounded.mono ((by decide +kernel : Bounded 13 (utf8 "Parse error: ")).append hc) (by omega)
  · have hc : Bounded 110 (utf8 c) := he.1
    exact Bounded.mono (((((by decide +kernel : Bounded 13 (utf8 "Parse error: ")).append hc).append
      (by decide +kernel : Bounded 27 (utf8 " (unknown type descriptor '"))).append (lossy_bounded he.2.1 he.2.2)).append
      (by decide +kernel : Bounded 2 (utf8 "')"))) (by omega)
  · exact he.elim

/-- What the error and the position can be. -/
def Told (e : ConvErr) (p : Nat) : Prop := Proper e ∨ ∃ s, e = .scan s ∧ Worded Phrase 68 s ∧ ∀ q, inner s = some q → q = p

theorem told_text (hT : T.Within L) {e : ConvErr} {p : Nat} (h : Told e p) : Bounded (248 + L + (decimal p).length) (convText T e) := by
  rcases h with h | ⟨s, rfl, h, hp⟩
  · exact (convText_bounded hT h).mono (by omega)
  · refine (scanText_bounded hT h).mono ?_
    cases hi : inner s with
    | none =>
      have h0 : (decimal 0).length = 1 := by decide +kernel
      simp only [Option.getD_none, h0]; omega
    | some q => rw [hp q hi]; simp only [Option.getD_some]; omega

theorem told_report {stored : Option ConvErr} (hs : ∀ e, stored = some e → Proper e) {i : Nat} {s : SErr} (h : Worded Phrase 68 s) {e : ConvErr} {p : Nat}
    (hr : report stored i s = .err e p) : Told e p := by
  unfold report at hr
  split at hr
  · rename_i err
    simp only [Conv.err.injEq] at hr
    exact .inl (hr.1 ▸ hs err rfl)
  · simp only [Conv.err.injEq] at hr
    refine .inr ⟨s, hr.1.symm, h, ?_⟩
    intro q hq
    rw [← hr.2]
    cases s <;> simp only [inner, Option.some.injEq, reduceCtorEq] at hq <;> exact hq.symm

theorem fair_mono {Q : String → Prop} {m n : Nat} (h : m ≤ n) {s : SErr} (hs : Worded Q m s) : Worded Q n s := by
  cases s <;> first | exact Nat.le_trans hs h | exact hs

theorem from_ddb_told (turns F : Nat) (reader : Reader) (d : Dest) (rb cb : Bytes) (pretty unbuffered wrapper : Bool) {e : ConvErr} {p : Nat}
    (hr : (convertDdbToNormal turns F reader d rb cb pretty unbuffered wrapper).2 = .err e p) : Told e p := by
  unfold convertDdbToNormal at hr
  rcases hp : U8Pool.new cb 68 with pool | _ | _
  · rw [hp] at hr
    simp only at hr
    obtain ⟨R, hR, _, _, hh⟩ := holds_new hp
    have h := scan_tells (ToNormal.Say.says F) own_short turns F ⟨[], false⟩
      (st := ⟨.new reader rb, .new d pretty unbuffered wrapper, pool⟩) ⟨⟨by simp [ToNormal.new], by simp [ToNormal.new]⟩, [], hh, by simp, by simp⟩
    revert h hr
    rcases scan turns F (ToNormal.callbacks F) ⟨[], false⟩ ⟨.new reader rb, .new d pretty unbuffered wrapper, pool⟩ with ⟨st', _ | e' | _ | _⟩
    · intro hr; cases hr
    · intro hr h; exact told_report h.1.1 (fair_mono (by omega) h.2) hr
    · intro hr; cases hr
    · intro hr; cases hr
  · rw [hp] at hr
    simp only [Conv.err.injEq] at hr
    obtain ⟨rfl, rfl⟩ := hr
    exact .inr ⟨_, rfl, (by decide +kernel : Phrase "Failed to create context pool"), by simp [inner]⟩
  · rw [hp] at hr
    cases hr

theorem to_ddb_told (turns F : Nat) (reader : Reader) (d : Dest) (rb cb : Bytes) (pretty unbuffered wrapper : Bool) {e : ConvErr} {p : Nat}
    (hr : (convertNormalToDdb turns F reader d rb cb pretty unbuffered wrapper).2 = .err e p) : Told e p := by
  unfold convertNormalToDdb at hr
  rcases hp : U8Pool.new cb 34 with pool | _ | _
  · rw [hp] at hr
    simp only at hr
    obtain ⟨R, hR, _, _, hh⟩ := holds_new hp
    have h := scan_tells (ToDdb.Say.says F) own_short turns F ⟨[], false⟩
      (st := ⟨.new reader rb, .new d wrapper pretty unbuffered, pool⟩) ⟨by simp [ToDdb.new, ToDdb.Say.Inv], [], hh, by simp, by simp⟩
    revert h hr
    rcases scan turns F (ToDdb.callbacks F) ⟨[], false⟩ ⟨.new reader rb, .new d wrapper pretty unbuffered, pool⟩ with ⟨st', _ | e' | _ | _⟩
    · intro hr; cases hr
    · intro hr h; exact told_report h.1 (fair_mono (by omega) h.2) hr
    · intro hr; cases hr
    · intro hr; cases hr
  · rw [hp] at hr
    simp only [Conv.err.injEq] at hr
    obtain ⟨rfl, rfl⟩ := hr
    exact .inr ⟨_, rfl, (by decide +kernel : Phrase "Failed to create context pool"), by simp [inner]⟩
  · rw [hp] at hr
    cases hr

theorem run_told {turns F : Nat} {args : Args} {reader : Reader} {c c' : Chan} {e : ConvErr} {p : Nat} (run : Runs turns F args reader c c' (.err e p)) :
    Told e p := by
  obtain ⟨_, _, _, d, hc, _⟩ := run
  unfold convert at hc
  split at hc
  · exact to_ddb_told turns F reader _ lookBuffer nameBuffer _ _ _ (Prod.mk.inj hc).2
  · exact from_ddb_told turns F reader _ lookBuffer nameBuffer _ _ _ (Prod.mk.inj hc).2

/-! ## C96 -/

/-- **C96** (partial), the message. The full statement is that there are no control characters in the message but the newline at its end; it is
false (`C96_control`): this one is about the control characters below the space. Whatever the input is, whatever its chunks are, and whatever
reading and writing do: the message of a failed conversion is one line, and it has at most 270 bytes, those of a foreign text, and twice
those of the position. -/
theorem C96_line_partial (turns F : Nat) (args : Args) (reader : Reader) (c c' : Chan) (T : Texts) (L : Nat) (hT : T.Within L) {e : ConvErr} {p : Nat}
    (run : Runs turns F args reader c c' (.err e p)) :
    OneLine (stderr T (.err e p)) ∧ (stderr T (.err e p)).length ≤ 270 + L + 2 * (decimal p).length := by
  have h := told_text hT (run_told run)
  have h1 : Bounded _ (utf8 "Error at position " ++ decimal p ++ utf8 ": " ++ convText T e) :=
    ((((by decide +kernel : Bounded 18 (utf8 "Error at position ")).append (decimal_bounded p)).append (by decide +kernel : Bounded 2 (utf8 ": "))).append h)
  refine ⟨⟨_, rfl, h1.1⟩, ?_⟩
  have := h1.2
  simp only [stderr, List.length_append, List.length_cons, List.length_nil] at this ⊢
  omega

/-- **C96**, the bound for a position below 2^64: 310 bytes and those of a foreign text. -/
theorem C96_length (turns F : Nat) (args : Args) (reader : Reader) (c c' : Chan) (T : Texts) (L : Nat) (hT : T.Within L) {e : ConvErr} {p : Nat}
    (hp : p < 2 ^ 64) (run : Runs turns F args reader c c' (.err e p)) : (stderr T (.err e p)).length ≤ 310 + L := by
  have h1 := (C96_line_partial turns F args reader c c' T L hT run).2
  have h2 : (decimal p).length ≤ 20 := decimal_length 19 p (Nat.lt_of_lt_of_le hp (by decide))
  omega

theorem takeWhile_digits (a b : Bytes) (ha : ∀ c ∈ a, isDigit c = true) (hb : ∀ c, b.head? = some c → isDigit c = false) :
    (a ++ b).takeWhile isDigit = a := by
  rw [List.takeWhile_append_of_pos ha]
  cases b with
  | nil => simp
  | cons c b => rw [List.takeWhile_cons, hb c rfl]; simp

/-- **C96**, the position: it can be read from the message, for any error. -/
theorem C96_position (T : Texts) (e : ConvErr) (p : Nat) : positionIn (stderr T (.err e p)) = p := by
  have h18 : (utf8 "Error at position ").length = 18 := by decide +kernel
  have hc : utf8 ": " = [58, 32] := by decide +kernel
  obtain ⟨h1, h2⟩ := decimal_spec p p (Nat.le_refl _)
  unfold positionIn
  simp only [stderr, List.append_assoc]
  rw [List.drop_append_of_le_length (by omega), List.drop_of_length_le (by omega), List.nil_append,
    takeWhile_digits _ _ (fun c hc => (h1 c hc).2) (by rw [hc]; intro c h; simp only [List.cons_append, List.head?_cons, Option.some.injEq] at h; subst h; decide)]
  exact h2

/-- **C96**, an error of `scan`: the position in its own text is that in front of it. -/
theorem C96_same (turns F : Nat) (args : Args) (reader : Reader) (c c' : Chan) (T : Texts) {s : SErr} {p : Nat}
    (run : Runs turns F args reader c c' (.err (.scan s) p)) :
    (∃ k, s = .io k) ∨ ∃ a b, stderr T (.err (.scan s) p) = utf8 "Error at position " ++ decimal p ++ utf8 ": " ++ (a ++ 32 :: decimal p ++ b) ++ [10] ∧
      ∀ c, b.head? = some c → isDigit c = false := by
  rcases run_told run with h | ⟨s', hs, _, hp⟩
  · exact h.elim
  injection hs with hs
  subst hs
  have key : ∀ q, inner s = some q → ∀ a b, scanText T s = a ++ 32 :: decimal q ++ b → (∀ c, b.head? = some c → isDigit c = false) →
      ∃ a b, stderr T (.err (.scan s) p) = utf8 "Error at position " ++ decimal p ++ utf8 ": " ++ (a ++ 32 :: decimal p ++ b) ++ [10] ∧
      ∀ c, b.head? = some c → isDigit c = false := by
    intro q hq a b h hb
    refine ⟨a, b, ?_, hb⟩
    have := hp q hq
    subst this
    simp only [stderr, convText, h]
  have e1 : utf8 " at index " = utf8 " at index" ++ [32] := by decide +kernel
  have e2 : utf8 " at position " = utf8 " at position" ++ [32] := by decide +kernel
  have e3 : utf8 "Unbalanced JSON at position " = utf8 "Unbalanced JSON at position" ++ [32] := by decide +kernel
  have e4 : utf8 "Internal error at position " = utf8 "Internal error at position" ++ [32] := by decide +kernel
  have e5 : utf8 "Max nesting exceeded at position " = utf8 "Max nesting exceeded at position" ++ [32] := by decide +kernel
  have e6 : utf8 ": " = [58, 32] := by decide +kernel
  have e7 : utf8 " with level " = 32 :: utf8 "with level " := by decide +kernel
  cases s with
  | rjiter er => exact .inr (key er.index rfl (errTypeText T er.type ++ utf8 " at index") [] (by simp [scanText, errText, e1]) (by simp))
  | unhandledPeek ch q => exact .inr (key q rfl (utf8 "UnhandledPeek: " ++ T.peek ch ++ utf8 " at position") [] (by simp [scanText, e2]) (by simp))
  | unbalancedJson q => exact .inr (key q rfl (utf8 "Unbalanced JSON at position") [] (by simp [scanText, e3]) (by simp))
  | internal q m =>
    exact .inr (key q rfl (utf8 "Internal error at position") (utf8 ": " ++ utf8 m) (by simp [scanText, e4]) (by
      rw [e6]; intro c h; simp only [List.cons_append, List.head?_cons, Option.some.injEq] at h; subst h; decide))
  | maxNesting q level =>
    exact .inr (key q rfl (utf8 "Max nesting exceeded at position") (utf8 " with level " ++ decimal level) (by simp [scanText, e5]) (by
      rw [e7]; intro c h; simp only [List.cons_append, List.head?_cons, Option.some.injEq] at h; subst h; decide))
  | action m q => exact .inr (key q rfl (utf8 "Action error: " ++ utf8 m ++ utf8 " at position") [] (by simp [scanText, e2]) (by simp))
  | io k => exact .inl ⟨k, rfl⟩

/-- **C96**, silence: there is a message exactly if the exit status is 1. -/
theorem C96_silent (T : Texts) (r : Conv) : stderr T r ≠ [] ↔ exitStatus r = some 1 := by
  cases r <;> simp [stderr, exitStatus]

/-- The texts of jiter 0.x and embedded_io are not in the repository; for the examples each is one letter. -/
def exTexts : Texts := ⟨fun _ => [74], fun _ => [74], [84], [84], fun _ => [75], fun _ => [75], fun _ => [80]⟩

example : exTexts.Within 1 := by constructor <;> simp [exTexts, Clear]

/-- `{"a":{"Q":1}}` -/
example : stderr exTexts (convertDdbToNormal 40 60 [.data 123 "\"a\":{\"Q\":1}}".toUTF8.toList] ⟨⟨[], []⟩, []⟩ (List.replicate 64 0)
    (List.replicate 1024 0) false false true).2 =
    utf8 "Error at position 10: Parse error: Invalid DynamoDB JSON format: unknown type descriptor (unknown type descriptor 'Q')\n" := by decide +kernel

/-- The input ends in an object. -/
example : stderr exTexts (convertNormalToDdb 40 60 [.data 123 "\"a\":1".toUTF8.toList] ⟨⟨[], []⟩, []⟩ (List.replicate 64 0)
    (List.replicate 1024 0) false false true).2 = utf8 "Error at position 6: JSON parsing error: J at index 6\n" := by decide +kernel

/-- A run of the tool with a message. -/
example : ∃ c' e p, Runs 40 60 ⟨false, false, false, false⟩ [.data 123 "\"a\":{\"Q\":1}}".toUTF8.toList] ⟨[], [], []⟩ c' (.err e p) ∧ p < 2 ^ 64 := by
  obtain ⟨c', h⟩ := runs_sound 40 60 ⟨false, false, false, false⟩ [.data 123 "\"a\":{\"Q\":1}}".toUTF8.toList] ⟨[], [], []⟩ (fun _ h => nomatch h) rfl
  have he : (ideal 40 60 ⟨false, false, false, false⟩ [.data 123 "\"a\":{\"Q\":1}}".toUTF8.toList]).2 =
      .err (.parse "Invalid DynamoDB JSON format: unknown type descriptor" (some [81])) 10 := by decide +kernel
  rw [he] at h
  exact ⟨c', _, _, h, by decide⟩

/-- A run with an error of `scan`. -/
example : ∃ c' s p, Runs 40 60 ⟨true, false, false, false⟩ [.data 123 "\"a\":1".toUTF8.toList] ⟨[], [], []⟩ c' (.err (.scan s) p) := by
  obtain ⟨c', h⟩ := runs_sound 40 60 ⟨true, false, false, false⟩ [.data 123 "\"a\":1".toUTF8.toList] ⟨[], [], []⟩ (fun _ h => nomatch h) rfl
  have he : (ideal 40 60 ⟨true, false, false, false⟩ [.data 123 "\"a\":1".toUTF8.toList]).2 =
      .err (.scan (.rjiter ⟨.json .eofWhileParsingObject, 6⟩)) 6 := by decide +kernel
  rw [he] at h
  exact ⟨c', _, _, h⟩

/-- **C96 is false** for the control characters that are not below the space: a type descriptor with U+009B (CSI, which begins a control sequence of
a terminal, as ESC [ does) is written to the standard error as it is. The input is `{"a":{"<U+009B>31m":1}}`. -/
theorem C96_control (T : Texts) : ∃ c' e p a b, Runs 40 60 ⟨false, false, false, false⟩
    [.data 123 [34, 97, 34, 58, 123, 34, 0xC2, 0x9B, 51, 49, 109, 34, 58, 49, 125, 125]] ⟨[], [], []⟩ c' (.err e p) ∧
    stderr T (.err e p) = a ++ [0xC2, 0x9B] ++ b := by
  obtain ⟨c', h⟩ := runs_sound 40 60 ⟨false, false, false, false⟩ [.data 123 [34, 97, 34, 58, 123, 34, 0xC2, 0x9B, 51, 49, 109, 34, 58, 49, 125, 125]]
    ⟨[], [], []⟩ (fun _ h => nomatch h) rfl
  have he : (ideal 40 60 ⟨false, false, false, false⟩ [.data 123 [34, 97, 34, 58, 123, 34, 0xC2, 0x9B, 51, 49, 109, 34, 58, 49, 125, 125]]).2 =
      .err (.parse "Invalid DynamoDB JSON format: unknown type descriptor" (some [0xC2, 0x9B, 51, 49, 109])) 14 := by decide +kernel
  rw [he] at h
  refine ⟨c', _, _, utf8 "Error at position 14: Parse error: Invalid DynamoDB JSON format: unknown type descriptor (unknown type descriptor '",
    utf8 "31m')\n", h, ?_⟩
  simp only [stderr, convText]
  decide +kernel

end Verif.Ddb
