import Verif.Scan.WholeCalls

/-!
# Reading numbers: the wrappers
-/

namespace Verif.Scan

open Verif.RJiter Verif.RJiter.Jiter
open Verif.RJiter.RJ (Retry norm)
open Verif.RJiter.Buffer (isAsciiWs)

/-- What is used of a decoder of numbers. -/
structure Numbers (num : JFn Bytes) (P : Bytes → Prop) : Prop where
  all : ∀ tok t k, Number tok → P tok → EndsNumber t → tok.length ≤ k → num ((tok ++ t).take k) = (tok.length, .ok tok)
  part : ∀ tok t k, Number tok → P tok → EndsNumber t → k < tok.length →
    (∃ e, num ((tok ++ t).take k) = (0, .error e) ∧ canRetry e.type = true) ∨ ∃ w, num ((tok ++ t).take k) = (k, .ok w)

theorem numbers_tok : Numbers numberTok fun _ => True :=
  ⟨fun _ _ _ h _ ht hk => numberTok_num h ht hk, fun _ _ _ h _ _ hk => numberTok_part h hk⟩

theorem numbers_any : Numbers numberAny ShortInt := ⟨decodes_value.num, decodes_value.part⟩

theorem intPart_digits {i : Bytes} (h : IntPart i) : Digits i ∧ (i.head? = some 48 → i.length = 1) := by
  rcases h with rfl | ⟨h, h'⟩
  · exact ⟨⟨by simp, by intro c hc; simp at hc; subst hc; simp [Digit]⟩, fun _ => rfl⟩
  · exact ⟨h, fun e => absurd e h'⟩

/-- `numberInt` behind the sign. -/
theorem numberInt_run {m l u : Bytes} (hm : m = [] ∨ m = [45]) (hl : Digits l) (h48 : l.head? = some 48 → l.length = 1)
    (hlen : l.length ≤ 4300) (hu : EndsNumber u) : numberInt (m ++ (l ++ u)) = (m.length + l.length, .ok (m ++ l)) := by
  have hs : sign (m ++ (l ++ u)) = m.length := by
    rcases hm with rfl | rfl
    · cases l with
      | nil => exact absurd rfl hl.1
      | cons d l =>
        have hd := hl.2 d (by simp)
        have : d ≠ 45 := by rintro rfl; simp [Digit] at hd
        simp [sign, this]
    · simp [sign]
  have hdg : digits (l ++ u) = l.length := digits_append hl.2 (fun c hc => (hu c hc).1)
  have hget : (m ++ (l ++ u))[m.length]? = l.head? := by
    rw [List.getElem?_append_right (Nat.le_refl _), Nat.sub_self]
    cases l with
    | nil => exact absurd rfl hl.1
    | cons d l => rfl
  simp only [numberInt, hs, List.drop_left, needDigit_digits hl u, hdg, hget]
  rw [if_neg (by omega), if_neg (by rintro ⟨h1, h2⟩; have := h48 h1; omega), ← List.drop_drop, List.drop_left, List.drop_left]
  have htake : (m ++ (l ++ u)).take (m.length + l.length) = m ++ l := by
    rw [← List.append_assoc, ← List.length_append, List.take_left]
  cases u with
  | nil => simp only; rw [htake]
  | cons c u =>
    have := hu c rfl
    simp only
    rw [if_neg (by rintro (h | h | h)
                   · exact this.2.1 h
                   · exact this.2.2.1 h
                   · exact this.2.2.2 h), htake]

theorem numbers_int : Numbers numberInt IsInt := by
  constructor
  · rintro tok t k _ ⟨m, i, rfl, hm, hi, hlen⟩ ht hk
    obtain ⟨hd, h48⟩ := intPart_digits hi
    rw [List.take_append, List.take_of_length_le hk, List.append_assoc, numberInt_run hm hd h48 hlen (endsNumber_take ht _),
      List.length_append]
  · rintro tok t k _ ⟨m, i, rfl, hm, hi, hlen⟩ _ hk
    obtain ⟨hd, h48⟩ := intPart_digits hi
    rw [List.take_append_of_le_length (by omega)]
    by_cases hkm : k ≤ m.length
    · left
      rw [List.take_append_of_le_length hkm]
      rcases hm with rfl | rfl
      · rw [List.take_nil]; exact ⟨_, rfl, rfl⟩
      · cases k with
        | zero => exact ⟨_, rfl, rfl⟩
        | succ k =>
          rw [List.take_of_length_le (by simp)]
          exact ⟨_, rfl, rfl⟩
    · right
      rw [List.take_append, List.take_of_length_le (by omega)]
      rw [List.length_append] at hk
      have hlt : (i.take (k - m.length)).length = k - m.length := by rw [List.length_take]; omega
      have h1 : Digits (i.take (k - m.length)) :=
        ⟨by intro e; rw [e] at hlt; simp at hlt; omega, fun c hc => hd.2 c (List.mem_of_mem_take hc)⟩
      have h2 : (i.take (k - m.length)).head? = some 48 → (i.take (k - m.length)).length = 1 := by
        intro e
        have : i.head? = some 48 := by
          cases i with
          | nil => simp at e
          | cons d i =>
            obtain ⟨j, hj⟩ : ∃ j, k - m.length = j + 1 := ⟨k - m.length - 1, by omega⟩
            rw [hj] at e; simpa using e
        have := h48 this
        omega
      have := numberInt_run (u := []) hm h1 h2 (by omega) (by intro c hc; simp at hc)
      rw [List.append_nil] at this
      exact ⟨_, by rw [this, hlt]; congr 1; omega⟩

variable {num : JFn Bytes} {P : Bytes → Prop}

theorem knownNum_reads (hN : Numbers num P) {tok t : Bytes} {pk : Byte} {tl : Bytes} (hpk : tok = pk :: tl)
    (h : Number tok) (hp : P tok) (ht : EndsNumber t) :
    Reads (knownNum num pk) (tok ++ t) tok.length tok ∧ ∀ k, k < tok.length → Again (knownNum num pk) true (tok ++ t) k := by
  obtain ⟨c, u, hcu, hc⟩ := number_head h
  obtain ⟨rfl, rfl⟩ := List.cons.inj (hpk.symm.trans hcu)
  have e : knownNum num pk = num := by funext d; simp only [knownNum]; rw [if_pos hc]
  rw [e]
  have hsh : ∀ k, k < tok.length → Retry true k (num ((tok ++ t).take k)) := by
    intro k hk
    rcases hN.part tok t k h hp ht hk with ⟨e, he, hr⟩ | ⟨w, hw⟩
    · rw [he]; exact hr
    · rw [hw]; exact ⟨rfl, Nat.le_refl _⟩
  refine ⟨⟨by simp, fun k hk => hN.all tok t k h hp ht hk, hsh⟩, ?_⟩
  intro k hk
  unfold Again
  rcases hN.part tok t k h hp ht hk with ⟨e, he, hr⟩ | ⟨w, hw⟩
  · have := hsh k hk
    rw [he] at this ⊢
    simp only [List.drop_zero, Nat.sub_zero]
    rw [he]; exact this
  · have := hsh 0 (by omega)
    rw [hw]
    simp only [Nat.sub_self]
    rw [List.drop_eq_nil_of_le (by simp; omega)]
    simpa using this

theorem nextNum_take {ws tok t : Bytes} (hw : Spaces ws) (h : Number tok) (k : Nat) :
    nextNum num ((ws ++ (tok ++ t)).take k) =
      if k ≤ ws.length then (k, .error ⟨.json .eofWhileParsingValue, k⟩)
      else match num ((tok ++ t).take (k - ws.length)) with
        | (n, .error e) => (ws.length + n, .error ⟨e.type, ws.length + e.index⟩)
        | (n, .ok v) => (ws.length + n, .ok v) := by
  obtain ⟨c, u, rfl, hc⟩ := number_head h
  by_cases hk : k ≤ ws.length
  · rw [if_pos hk, List.take_append_of_le_length hk, nextNum,
      bind_error (peek_ws (Ws.take (ws_of_spaces hw) k)), List.length_take, Nat.min_eq_left hk]
  · rw [if_neg hk]
    obtain ⟨j, hj⟩ : ∃ j, k - ws.length = j + 1 := ⟨k - ws.length - 1, by omega⟩
    rw [List.take_append, List.take_of_length_le (by omega), hj, List.cons_append, List.take_succ_cons]
    simp only [nextNum, JFn.bind, peek_tok (ws_of_spaces hw) (numHead_ws hc), List.drop_left, knownNum]
    rw [if_pos hc]
    rcases num (c :: (u ++ t).take j) with ⟨n, x⟩
    cases x <;> rfl

theorem nextNum_reads (hN : Numbers num P) {ws tok t : Bytes} (hw : Spaces ws) (h : Number tok) (hp : P tok)
    (ht : EndsNumber t) :
    Reads (nextNum num) (ws ++ (tok ++ t)) (ws.length + tok.length) tok ∧
      (ws = [] → ∀ k, k < tok.length → Again (nextNum num) true (tok ++ t) k) := by
  have hpos : 0 < tok.length := by obtain ⟨c, u, rfl, _⟩ := number_head h; simp
  have hsh : ∀ k, k < ws.length + tok.length → Retry true k (nextNum num ((ws ++ (tok ++ t)).take k)) := by
    intro k hk
    rw [nextNum_take hw h]
    by_cases hkw : k ≤ ws.length
    · rw [if_pos hkw]; exact rfl
    · rw [if_neg hkw]
      rcases hN.part tok t (k - ws.length) h hp ht (by omega) with ⟨e, he, hr⟩ | ⟨w, hw⟩
      · rw [he]; exact hr
      · rw [hw]; exact ⟨rfl, by omega⟩
  refine ⟨⟨by simp, ?_, hsh⟩, ?_⟩
  · intro k hk
    rw [nextNum_take hw h, if_neg (by omega), hN.all tok t _ h hp ht (by omega)]
  · rintro rfl k hk
    have e := nextNum_take (num := num) (t := t) hw h k
    simp only [List.nil_append, List.length_nil, Nat.sub_zero, Nat.zero_add] at e hsh
    unfold Again
    by_cases hk0 : k ≤ 0
    · have : k = 0 := by omega
      subst this
      simpa using hsh 0 hk
    · rw [if_neg hk0] at e
      rcases hN.part tok t k h hp ht hk with ⟨er, he, hr⟩ | ⟨w, hw⟩
      · rw [he] at e
        have := hsh k hk
        rw [e] at this ⊢
        simp only [List.drop_zero, Nat.sub_zero]
        rw [e]; exact this
      · rw [hw] at e
        rw [e]
        simp only [Nat.sub_self]
        rw [List.drop_eq_nil_of_le (by simp; omega)]
        simpa using hsh 0 hpos

theorem number_ascii {tok : Bytes} (h : Number tok) : ∃ pk tl, tok = pk :: tl ∧ isAsciiWs pk = false :=
  Val.Gives.first (R := .skip) (B := .unit) (v := .atom tok) (.number tok h trivial)

/-- `next_int`, `next_float`, `next_number`. -/
theorem nextNum_call (hN : Numbers num P) {s : RJ} {fuel : Nat} {tok ws t : Bytes} (h : s.Sync)
    (hcl : s.b.reader.Clean) (hf : s.b.reader.size + 2 ≤ fuel) (hr : s.rest = ws ++ (tok ++ t)) (hw : Spaces ws)
    (hn : Number tok) (hp : P tok) (ht : EndsNumber t) :
    (t ≠ [] → tok.length + 1 ≤ s.b.buf.length → ∃ s', s.loopUntilSuccess fuel (nextNum num) none true = (s', .ok tok) ∧
      s.Moved s' (ws.length + tok.length)) ∧
    (t = [] → tok.length ≤ s.b.buf.length → (0 < s.jidx ∨ ws ≠ [] ∨ s.b.nBytes < tok.length) →
      ∃ s', s.loopUntilSuccess fuel (nextNum num) none true = (s', .ok tok) ∧ s'.Sync ∧ s'.rest = []) := by
  obtain ⟨r0, a0⟩ := nextNum_reads hN (ws := []) (by intro c hc; simp at hc) hn hp ht
  obtain ⟨r1, _⟩ := nextNum_reads hN hw hn hp ht
  replace a0 := a0 rfl
  simp only [List.nil_append, List.length_nil, Nat.zero_add] at r0
  obtain ⟨pk, tl, hpk, hws⟩ := number_ascii hn
  have hnorm : norm none s.rest = tok ++ t := by
    rw [hr, hpk, List.cons_append]; exact norm_none (ws_of_spaces hw) hws _
  have hpos : 0 < tok.length := by rw [hpk]; simp
  refine ⟨?_, ?_⟩
  · intro ht hb
    refine Reads.call h hcl hf hr hnorm r1 r0 hpos ?_ hb (fun _ _ hk => a0 _ hk)
    have : 0 < t.length := List.length_pos_iff.mpr ht
    rw [List.length_append]; omega
  · rintro rfl hb hp
    rw [List.append_nil] at r0 r1 hr hnorm a0
    exact Reads.last h hcl hf hr hnorm r1 r0 hpos hb (fun _ _ hk => a0 _ hk) hp

/-- `known_int`, `known_float`, `known_number`. -/
theorem knownNum_call (hN : Numbers num P) {s : RJ} {fuel : Nat} {tok t : Bytes} {pk : Byte} {tl : Bytes} (h : s.Sync)
    (hcl : s.b.reader.Clean) (hf : s.b.reader.size + 2 ≤ fuel) (hr : s.rest = tok ++ t) (hpk : tok = pk :: tl)
    (hn : Number tok) (hp : P tok) (ht : EndsNumber t) :
    (t ≠ [] → tok.length + 1 ≤ s.b.buf.length → ∃ s', s.loopUntilSuccess fuel (knownNum num pk) none true = (s', .ok tok) ∧
      s.Moved s' tok.length) ∧
    (t = [] → tok.length ≤ s.b.buf.length → (0 < s.jidx ∨ s.b.nBytes < tok.length) →
      ∃ s', s.loopUntilSuccess fuel (knownNum num pk) none true = (s', .ok tok) ∧ s'.Sync ∧ s'.rest = []) := by
  obtain ⟨r0, a0⟩ := knownNum_reads hN hpk hn hp ht
  obtain ⟨pk2, tl2, hpk2, hws⟩ := number_ascii hn
  have hnorm : norm none s.rest = tok ++ t := by
    rw [hr, hpk2, List.cons_append]; exact norm_none (ws := []) Ws.nil hws _
  have hpos : 0 < tok.length := by rw [hpk]; simp
  refine ⟨?_, ?_⟩
  · intro ht hb
    have := Reads.call (ws := []) h hcl hf (by simpa using hr) hnorm (by simpa using r0) r0 hpos (by
      have : 0 < t.length := List.length_pos_iff.mpr ht
      rw [List.length_append]; omega) hb (fun _ _ hk => a0 _ hk)
    simpa using this
  · rintro rfl hb hp
    rw [List.append_nil] at r0 hr hnorm a0
    exact Reads.last (ws := []) h hcl hf (by simpa using hr) hnorm (by simpa using r0) r0 hpos hb (fun _ _ hk => a0 _ hk) (by
      rcases hp with hp | hp
      · exact .inl hp
      · exact .inr (.inr hp))

end Verif.Scan
