import Verif.Scan.WholeFits
import Verif.RJiter.WholeFuel
import Verif.RJiter.CallEnd
import Verif.RJiter.ModelValue

/-!
# Reading whole values: the wrappers
-/

namespace Verif.Scan

open Verif.RJiter Verif.RJiter.Jiter
open Verif.RJiter.RJ (Retry norm)
open Verif.RJiter.Buffer (isAsciiWs)

/-! ### The decoders -/

theorem endsNumber_take {t : Bytes} (h : EndsNumber t) (k : Nat) : EndsNumber (t.take k) := by
  intro c hc
  cases t with
  | nil => simp at hc
  | cons a t =>
    cases k with
    | zero => simp at hc
    | succ k => exact h c (by simpa using hc)

theorem numberTok_num {tok t : Bytes} {k : Nat} (h : Number tok) (ht : EndsNumber t) (hk : tok.length ≤ k) :
    numberTok ((tok ++ t).take k) = (tok.length, .ok tok) := by
  rw [List.take_append, List.take_of_length_le hk]
  exact numberTok_spec h (endsNumber_take ht _)

theorem numberTok_part {tok t : Bytes} {k : Nat} (h : Number tok) (hk : k < tok.length) :
    (∃ e, numberTok ((tok ++ t).take k) = (0, .error e) ∧ canRetry e.type = true) ∨
    ∃ w, numberTok ((tok ++ t).take k) = (k, .ok w) := by
  rw [List.take_append_of_le_length (by omega)]
  cases k with
  | zero => exact .inl ⟨_, rfl, rfl⟩
  | succ k =>
    rcases numberEnd_take h (k := k + 1) (by omega) (by omega) with e | ⟨j, e⟩
    · right; exact ⟨tok.take (k + 1), by simp [numberTok, e, List.take_take]⟩
    · left; simp only [numberTok, e]; exact ⟨_, rfl, rfl⟩

/-- The part of the data that `numberAny` counts. -/
theorem numberAny_eq {tok t : Bytes} {k : Nat} (hs : ShortInt tok) (ht : EndsNumber t) :
    numberAny ((tok ++ t).take k) = numberTok ((tok ++ t).take k) := by
  obtain ⟨m, i, fe, rfl, hm, hi, hlen, hfe⟩ := hs
  have hid : ∀ c ∈ i, Digit c := by
    rcases hi with rfl | ⟨⟨_, h⟩, _⟩
    · intro c hc; simp at hc; subst hc; simp [Digit]
    · exact h
  have hi0 : ∃ d l, i = d :: l ∧ Digit d := by
    rcases hi with rfl | ⟨⟨h, h'⟩, _⟩
    · exact ⟨_, _, rfl, by simp [Digit]⟩
    · cases i with
      | nil => exact absurd rfl h
      | cons d l => exact ⟨d, l, rfl, h' d (by simp)⟩
  have hd : ∀ j, digits ((i ++ (fe ++ t)).take j) ≤ 4300 := by
    intro j
    by_cases hj : j ≤ i.length
    · rw [List.take_append_of_le_length hj]
      have := digits_append (ds := i.take j) (t := []) (fun c hc => hid c (List.mem_of_mem_take hc)) (by simp)
      rw [List.append_nil] at this
      rw [this, List.length_take]; omega
    · rw [List.take_append, List.take_of_length_le (by omega), digits_append hid]
      · exact hlen
      · intro c hc
        have hc' : (fe ++ t).head? = some c := by
          cases hx : fe ++ t with
          | nil => rw [hx] at hc; simp at hc
          | cons a u =>
            rw [hx] at hc
            obtain ⟨q, hq⟩ : ∃ q, j - i.length = q + 1 := ⟨j - i.length - 1, by omega⟩
            rw [hq] at hc; simpa using hc
        cases fe with
        | nil => exact (ht c (by simpa using hc')).1
        | cons a u => exact hfe c (by simpa using hc')
  have key : ¬ 4300 < digits (((m ++ (i ++ fe) ++ t).take k).drop (sign ((m ++ (i ++ fe) ++ t).take k))) := by
    cases k with
    | zero => simp [digits, sign]
    | succ k =>
      rcases hm with rfl | rfl
      · obtain ⟨d, l, rfl, hdd⟩ := hi0
        have h45 : d ≠ 45 := by rintro rfl; simp [Digit] at hdd
        have := hd (k + 1)
        simp only [List.nil_append, List.cons_append, List.take_succ_cons, sign, if_neg h45, List.drop_zero, List.append_assoc] at this ⊢
        omega
      · have := hd k
        simp only [List.cons_append, List.nil_append, List.take_succ_cons, sign, if_true, List.drop_succ_cons, List.drop_zero,
          List.append_assoc] at this ⊢
        omega
  simp only [numberAny]
  rw [if_neg key]

theorem decodes_value : Decodes .value .value := by
  refine ⟨knownStr_prefix, ?_, ?_, ?_⟩
  · rintro body s t ⟨chars, h, rfl⟩; exact knownStr_body h 34 t
  · intro tok t k h hs ht hk
    show numberAny _ = _
    rw [numberAny_eq hs ht]; exact numberTok_num h ht hk
  · intro tok t k h hs ht hk
    show (∃ e, numberAny _ = _ ∧ _) ∨ ∃ w, numberAny _ = _
    rw [numberAny_eq hs ht]; exact numberTok_part h hk

theorem decodes_skip : Decodes .skip .skip := by
  refine ⟨knownBytes_prefix, ?_, ?_, ?_⟩
  · rintro body s t ⟨h, rfl⟩; exact knownBytes_body h 34 t
  · intro tok t k h _ ht hk; exact numberTok_num h ht hk
  · intro tok t k h _ ht hk; exact numberTok_part h hk

/-! ### `next_*` -/

variable {α : Type} {D : Decoders} {B : Build α} {R : Reading}

theorem Val.Gives.first {v : Val} {x : α} (h : v.Gives R B x) : ∃ pk tl, v.text = pk :: tl ∧ isAsciiWs pk = false := by
  cases v with
  | atom tok =>
    simp only [Val.Gives] at h
    cases h with
    | null => exact ⟨_, _, rfl, by decide⟩
    | true => exact ⟨_, _, rfl, by decide⟩
    | false => exact ⟨_, _, rfl, by decide⟩
    | number tok h _ =>
      obtain ⟨c, t, rfl, hc⟩ := number_head h
      refine ⟨c, t, rfl, ?_⟩
      rcases hc with rfl | hc
      · decide
      · rw [isDigit_iff] at hc
        cases hi : isAsciiWs c with
        | false => rfl
        | true =>
          simp only [isAsciiWs, Bool.or_eq_true, beq_iff_eq] at hi
          rcases hi with (((rfl | rfl) | rfl) | rfl) | rfl <;> simp [Digit] at hc
    | string body s h => exact ⟨_, _, rfl, by decide⟩
  | arr w items => exact ⟨_, _, rfl, by decide⟩
  | obj w items => exact ⟨_, _, rfl, by decide⟩

theorem next_fits (hD : Decodes D R) {v : Val} {x : α} {fuel depth : Nat} {ws t : Bytes} (hw : Spaces ws) (hg : v.Gives R B x)
    (hc : v.cost ≤ fuel) (hd : v.nesting ≤ depth) (hs : Stops v t) :
    Fits D B (nextAt D B fuel depth) (ws ++ (v.text ++ t)) (ws.length + v.text.length) (ws.length + v.text.length) x := by
  obtain ⟨pk, tl, h1, h2, _, h4⟩ := Val.fits hD v x fuel depth t hg hc hd hs
  have hp := peek_fits (D := D) (B := B) (ws_of_spaces hw) h2 (tl ++ t)
  rw [← List.cons_append, ← h1] at hp
  refine Fits.bind hp (by rw [List.drop_left]; exact h4) (by
    have := congrArg List.length h1; simp only [List.length_cons] at this; omega) ?_
  intro j hj i c h
  rcases take_ws ws pk (tl ++ t) j with ⟨_, e⟩ | ⟨h', e⟩
  · rw [h1, List.cons_append, e, peek_ws (Ws.take (ws_of_spaces hw) _)] at h
    simp at h
  · omega

theorem nextWhole_reads {r : Bytes} {n : Nat} {x : α} {F : Nat} (hF : 2 * r.length + 1 ≤ F)
    (h : Fits D B (nextAt D B F recursionLimit) r n n x) :
    Reads (nextWhole D B) r n x ∧ ∀ k, k < n → Again (nextWhole D B) true r k := by
  have hfuel : ∀ k, nextWhole D B (r.take k) = nextAt D B F recursionLimit (r.take k) := by
    intro k
    refine nextWhole_fuel ?_
    have : (r.take k).length ≤ r.length := by rw [List.length_take]; omega
    omega
  have hfit := h.fits
  refine ⟨⟨h.fits, fun k hk => by rw [hfuel]; exact h.enough k hk, ?_⟩, ?_⟩
  · intro k hk
    have hc := h.short k hk
    rw [hfuel]
    unfold Cut at hc
    unfold Retry
    rcases hx : nextAt D B F recursionLimit (r.take k) with ⟨m, y⟩
    rw [hx] at hc
    cases y with
    | error e => exact hc.1
    | ok w => exact ⟨rfl, hc⟩
  · intro k hk
    have hc := h.short k hk
    unfold Again
    rw [hfuel]
    unfold Cut at hc
    rcases hx : nextAt D B F recursionLimit (r.take k) with ⟨m, y⟩
    rw [hx] at hc
    cases y with
    | error e =>
      simp only at hc ⊢
      have hl := hc.2 (F - 1) recursionLimit
      rw [show F - 1 + 1 = F by omega] at hl
      have hlen : ((r.take k).drop m).length = k - m := by rw [List.length_drop, List.length_take]; omega
      rw [hlen] at hl
      rw [nextWhole_fuel (F := F) (by rw [hlen]; omega)]
      exact hl
    | ok w =>
      simp only at hc ⊢
      rw [List.drop_eq_nil_of_le (by simp; omega)]
      exact rfl

/-- `next_value` and `next_skip`. -/
theorem nextWhole_call (hD : Decodes D R) {s : RJ} {fuel : Nat} {v : Val} {x : α} {ws t : Bytes} (h : s.Sync)
    (hcl : s.b.reader.Clean) (hf : s.b.reader.size + 2 ≤ fuel) (hr : s.rest = ws ++ (v.text ++ t)) (hw : Spaces ws)
    (hg : v.Gives R B x) (hd : v.nesting ≤ recursionLimit) (hs : Stops v t) :
    (t ≠ [] → v.text.length + 1 ≤ s.b.buf.length → ∃ s', s.loopUntilSuccess fuel (nextWhole D B) none true = (s', .ok x) ∧
      s.Moved s' (ws.length + v.text.length)) ∧
    (t = [] → v.text.length ≤ s.b.buf.length → (0 < s.jidx ∨ ws ≠ [] ∨ s.b.nBytes < v.text.length) →
      ∃ s', s.loopUntilSuccess fuel (nextWhole D B) none true = (s', .ok x) ∧ s'.Sync ∧ s'.rest = []) := by
  have h0 := next_fits (B := B) hD (t := t) (fuel := v.cost + (2 * s.rest.length + 1)) (depth := recursionLimit) (ws := []) (by intro c hc; simp at hc) hg (by omega) hd hs
  have h1 := next_fits (B := B) hD (t := t) (fuel := v.cost + (2 * s.rest.length + 1)) (depth := recursionLimit) hw hg (by omega) hd hs
  have hlen := congrArg List.length hr
  simp only [List.length_append] at hlen
  simp only [List.nil_append, List.length_nil, Nat.zero_add] at h0
  obtain ⟨r0, a0⟩ := nextWhole_reads (by simp only [List.length_append]; omega) h0
  obtain ⟨r1, _⟩ := nextWhole_reads (by simp only [List.length_append]; omega) h1
  obtain ⟨pk, tl, hpk, hws⟩ := Val.Gives.first hg
  have hnorm : norm none s.rest = v.text ++ t := by
    rw [hr, hpk, List.cons_append]; exact norm_none (ws_of_spaces hw) hws _
  have hpos : 0 < v.text.length := by rw [hpk]; simp
  refine ⟨?_, ?_⟩
  · intro ht hb
    refine Reads.call h hcl hf hr hnorm r1 r0 hpos ?_ hb (fun _ _ hk => a0 _ hk)
    have : 0 < t.length := List.length_pos_iff.mpr ht
    rw [List.length_append]; omega
  · rintro rfl hb hp
    rw [List.append_nil] at r0 r1 hr hnorm a0
    exact Reads.last h hcl hf hr hnorm r1 r0 hpos hb (fun _ _ hk => a0 _ hk) hp

/-! ### `known_*` -/

theorem knownWhole_reads {r : Bytes} {n : Nat} {x : α} {F : Nat} {pk : Byte} (hF : 2 * r.length + 1 ≤ F)
    (h : Fits D B (value D B F recursionLimit pk) r n n x) : Reads (knownWhole D B pk) r n x := by
  have hfuel : ∀ k, knownWhole D B pk (r.take k) = value D B F recursionLimit pk (r.take k) := by
    intro k
    refine knownWhole_fuel ?_ pk
    have : (r.take k).length ≤ r.length := by rw [List.length_take]; omega
    omega
  refine ⟨h.fits, fun k hk => by rw [hfuel]; exact h.enough k hk, ?_⟩
  intro k hk
  have hc := h.short k hk
  rw [hfuel]
  unfold Cut at hc
  unfold Retry
  rcases hx : value D B F recursionLimit pk (r.take k) with ⟨m, y⟩
  rw [hx] at hc
  cases y with
  | error e => exact hc.1
  | ok w => exact ⟨rfl, hc⟩

theorem map_prefix_stay {β : Type} {f : JFn β} (g : β → α) (hk : PrefixFn f) {r : Bytes} {n : Nat} {v : β}
    (h : f r = (n, .ok v)) {k : Nat} (hkn : k < n) : (f.map g (r.take k)).1 = 0 := by
  obtain ⟨_, _, _, h4⟩ := hk _ _ _ h
  obtain ⟨e, he, _⟩ := h4 k hkn
  rw [JFn.map, bind_error he]

/-- A short attempt on an atom stays, or comes to the end. -/
theorem atom_stay (hD : Decodes D R) {tok t : Bytes} {x : α} (h : AtomGives R B tok x) (ht : Number tok → EndsNumber t)
    {pk : Byte} {tl : Bytes} (hpk : tok = pk :: tl) (fuel depth : Nat) {k : Nat} (hk : k < tok.length) :
    (value D B (fuel + 1) depth pk ((tok ++ t).take k)).1 = 0 ∨ (value D B (fuel + 1) depth pk ((tok ++ t).take k)).1 = k := by
  cases h with
  | null =>
    obtain ⟨rfl, rfl⟩ := List.cons.inj hpk
    left
    rw [value_null]
    exact map_prefix_stay (n := 4) (v := ()) _ knownNull_prefix (by simp [Jiter.knownNull, consumeIdent, matchIdent]) hk
  | true =>
    obtain ⟨rfl, rfl⟩ := List.cons.inj hpk
    left
    rw [value_true]
    exact map_prefix_stay (n := 4) (v := true) _ (knownBool_prefix 116) (by simp [Jiter.knownBool, consumeIdent, matchIdent]) hk
  | false =>
    obtain ⟨rfl, rfl⟩ := List.cons.inj hpk
    left
    rw [value_false]
    exact map_prefix_stay (n := 5) (v := false) _ (knownBool_prefix 102) (by simp [Jiter.knownBool, consumeIdent, matchIdent]) hk
  | number tok h hn =>
    obtain ⟨c, u, hcu, hc⟩ := number_head h
    obtain ⟨rfl, rfl⟩ := List.cons.inj (hpk.symm.trans hcu)
    rw [value_num fuel depth hc]
    rcases hD.part tok t k h hn (ht h) hk with ⟨e, he, _⟩ | ⟨w, hw⟩
    · left; rw [JFn.map, bind_error he]
    · right; rw [JFn.map, bind_ok (m := 0) hw rfl]; rfl
  | string body s h =>
    obtain ⟨rfl, rfl⟩ := List.cons.inj hpk
    left
    rw [value_str]
    have e : (34 :: (body ++ [34])) ++ t = 34 :: (body ++ 34 :: t) := by simp
    rw [e]
    exact map_prefix_stay _ hD.pre (hD.str body s t h) (by simpa using hk)

/-- `known_value` and `known_skip`. -/
theorem knownWhole_call (hD : Decodes D R) {s : RJ} {fuel : Nat} {v : Val} {x : α} {pk : Byte} {tl t : Bytes} (h : s.Sync)
    (hcl : s.b.reader.Clean) (hf : s.b.reader.size + 2 ≤ fuel) (hr : s.rest = v.text ++ t) (hpk : v.text = pk :: tl)
    (hg : v.Gives R B x) (hd : v.nesting ≤ recursionLimit) (hs : Stops v t)
    (hpos : (∃ tok, v = .atom tok) ∨ 0 < s.jidx ∨ v.text.length ≤ s.b.nBytes) :
    (t ≠ [] → v.text.length + 1 ≤ s.b.buf.length → ∃ s', s.loopUntilSuccess fuel (knownWhole D B pk) none true = (s', .ok x) ∧
      s.Moved s' v.text.length) ∧
    (t = [] → v.text.length ≤ s.b.buf.length → (0 < s.jidx ∨ s.b.nBytes < v.text.length) →
      ∃ s', s.loopUntilSuccess fuel (knownWhole D B pk) none true = (s', .ok x) ∧ s'.Sync ∧ s'.rest = []) := by
  obtain ⟨pk', tl', e1, _, _, h4⟩ := Val.fits (B := B) hD v x (v.cost + (2 * s.rest.length + 1)) recursionLimit t hg (by omega) hd hs
  obtain ⟨rfl, rfl⟩ := List.cons.inj (e1.symm.trans hpk)
  have hlen := congrArg List.length hr
  simp only [List.length_append] at hlen
  have r0 := knownWhole_reads (by simp only [List.length_append]; omega) h4
  obtain ⟨pk2, tl2, hpk2, hws⟩ := Val.Gives.first hg
  have hnorm : norm none s.rest = v.text ++ t := by
    rw [hr, hpk2, List.cons_append]; exact norm_none (ws := []) Ws.nil hws _
  have hlt : 0 < v.text.length := by rw [hpk]; simp
  have ha : s.jidx = 0 → ([] : Bytes) = [] → s.b.nBytes < v.text.length → Again (knownWhole D B pk') true (v.text ++ t) s.b.nBytes := by
    intro hj _ hk
    rcases hpos with ⟨tok, rfl⟩ | hp | hp
    · have hsh := r0.short _ hk
      have hnl := r0.nil hlt
      unfold Again
      have hst := atom_stay (B := B) hD (t := t) hg hs hpk (2 * (((Val.atom tok).text ++ t).take s.b.nBytes).length) recursionLimit hk
      have hst' : (knownWhole D B pk' (((Val.atom tok).text ++ t).take s.b.nBytes)).1 = 0 ∨
          (knownWhole D B pk' (((Val.atom tok).text ++ t).take s.b.nBytes)).1 = s.b.nBytes := hst
      rcases hst' with e | e
      · rw [e, List.drop_zero, Nat.sub_zero]; exact hsh
      · rw [e, Nat.sub_self, List.drop_eq_nil_of_le (by simp; omega)]; exact hnl
    · omega
    · omega
  refine ⟨?_, ?_⟩
  · intro ht hb
    have := Reads.call (ws := []) h hcl hf (by simpa using hr) hnorm (by simpa using r0) r0 hlt (by
      have : 0 < t.length := List.length_pos_iff.mpr ht
      rw [List.length_append]; omega) hb ha
    simpa using this
  · rintro rfl hb hp
    rw [List.append_nil] at r0 hr hnorm ha
    exact Reads.last (ws := []) h hcl hf (by simpa using hr) hnorm (by simpa using r0) r0 hlt hb ha (by
      rcases hp with hp | hp
      · exact .inl hp
      · exact .inr (.inr hp))

end Verif.Scan
