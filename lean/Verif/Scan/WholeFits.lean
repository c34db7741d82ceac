import Verif.Scan.WholeSpec
import Verif.Scan.Run
import Verif.RJiter.Whole

/-!
# Reading whole values: documents fit
-/

namespace Verif.Scan

open Verif.RJiter Verif.RJiter.Jiter Verif.RJiter.RJ

/-- What is used of the decoders. -/
structure Decodes (D : Decoders) (R : Reading) : Prop where
  pre : PrefixFn D.str
  str : ∀ body s t, R.str body s → D.str (34 :: (body ++ 34 :: t)) = (body.length + 2, .ok s)
  num : ∀ tok t k, Number tok → R.num tok → EndsNumber t → tok.length ≤ k → D.num ((tok ++ t).take k) = (tok.length, .ok tok)
  part : ∀ tok t k, Number tok → R.num tok → EndsNumber t → k < tok.length →
    (∃ e, D.num ((tok ++ t).take k) = (0, .error e) ∧ canRetry e.type = true) ∨ ∃ w, D.num ((tok ++ t).take k) = (k, .ok w)

mutual
/-- Fuel for a document. -/
def Val.cost : Val → Nat
  | .atom _ => 1
  | .arr _ items => items.cost + 1
  | .obj _ members => members.cost + 1
@[inherit_doc Val.cost]
def Items.cost : Items → Nat
  | .nil => 0
  | .cons _ v _ more => max v.cost more.cost + 1
@[inherit_doc Val.cost]
def Members.cost : Members → Nat
  | .nil => 0
  | .cons _ _ _ _ v _ more => max v.cost more.cost + 1
end

theorem Ends.stops {v : Val} {t : Bytes} (h : Ends v t) : Stops v t := by
  cases v with
  | atom tok => exact fun hn => (h hn).1
  | arr => trivial
  | obj => trivial

theorem ws_of_spaces {w : Bytes} (h : Spaces w) : Ws w := fun c hc => (isWs_iff c).mpr (h c hc)

variable {α : Type} {D : Decoders} {B : Build α} {R : Reading}

theorem objectKey_spec {known : JFn Bytes} {body s m t : Bytes}
    (h : known (34 :: (body ++ 34 :: (m ++ 58 :: t))) = (body.length + 2, .ok s)) (hm : Ws m) :
    objectKey known (34 :: (body ++ 34 :: (m ++ 58 :: t))) = (body.length + 2 + m.length + 1, .ok s) := by
  have hd : (34 :: (body ++ 34 :: (m ++ 58 :: t))).drop (body.length + 2) = m ++ 58 :: t := by
    rw [List.drop_succ_cons, ← List.drop_drop, List.drop_left]; rfl
  simp only [objectKey, h, hd]
  rw [wsLen_cons hm (by decide)]
  rw [show (34 :: (body ++ 34 :: (m ++ 58 :: t))).drop (body.length + 2 + m.length) = 58 :: t by
    rw [← List.drop_drop, hd, List.drop_left]]
  simp

theorem key_drop (k m t : Bytes) : (34 :: (k ++ 34 :: (m ++ 58 :: t))).drop (k.length + 2 + m.length + 1) = t := by
  rw [show k.length + 2 + m.length + 1 = (k.length + (1 + (m.length + 1))) + 1 by omega, List.drop_succ_cons,
    ← List.drop_drop, List.drop_left, Nat.add_comm 1, List.drop_succ_cons, ← List.drop_drop, List.drop_left]
  rfl

/-- A good call does not succeed on less than it needs. -/
theorem good_noOk {β γ : Type} {f : JFn β} {r : Bytes} {n need : Nat} {v : β} (hg : Good f false r n v need) {g : β → JFn γ} :
    ∀ k, k < need → ∀ m v', f (r.take k) = (m, .ok v') → AskNil (g v') := by
  intro k hk m v' h
  have := hg.short k hk
  rw [h] at this
  exact absurd this.1 (by decide)

/-- A prefix function on an atom; `value` on anything that starts with the same byte is that function. -/
theorem prefix_fits {β : Type} {f : JFn β} {g : β → α} {pk : Byte} (hk : PrefixFn f) (hpk : isWs pk = false)
    (hv : ∀ fuel depth, value D B (fuel + 1) depth pk = f.map g) {t : Bytes} {n : Nat} {v : β}
    (h : f (pk :: t) = (n, .ok v)) (fuel depth : Nat) :
    Fits D B (value D B (fuel + 1) depth pk) (pk :: t) n n (g v) := by
  rw [hv]
  obtain ⟨_, _, _, h4⟩ := hk _ _ _ h
  refine .map g (.of_good (hk.good h) ?_)
  intro k hkn
  obtain ⟨e, he, hr⟩ := h4 k hkn
  simp only [Cut, he]
  refine ⟨hr, ?_⟩
  rw [List.drop_zero]
  cases k with
  | zero => exact left_nil
  | succ k =>
    rw [List.take_succ_cons] at he ⊢
    intro fuel' depth'
    have hp : peek (pk :: t.take k) = (0, .ok pk) := by simpa using peek_tok Ws.nil hpk (t.take k)
    have hv' : value D B (fuel' + 1) depth' pk (pk :: t.take k) = (0, .error e) := by
      rw [hv]; exact bind_error he
    rw [nextAt, bind_ok_error hp hv']
    exact hr

theorem number_fits (hD : Decodes D R) {tok t : Bytes} (h : Number tok) (hn : R.num tok) (ht : EndsNumber t)
    (fuel depth : Nat) : ∃ pk tl, tok = pk :: tl ∧ isWs pk = false ∧ pk ≠ 93 ∧
      Fits D B (value D B (fuel + 1) depth pk) (tok ++ t) tok.length tok.length (B.num tok) := by
  obtain ⟨pk, tl, rfl, hc⟩ := number_head h
  refine ⟨pk, tl, rfl, numHead_ws hc, ?_, ?_⟩
  · rintro rfl; revert hc; decide
  rw [value_num fuel depth hc]
  refine .map B.num ⟨by simp, Nat.le_refl _, fun k hk => hD.num _ _ _ h hn ht hk, ?_⟩
  intro k hk
  rcases hD.part _ _ _ h hn ht hk with ⟨e, he, hr⟩ | ⟨w, hw⟩
  · simp only [Cut, he]
    refine ⟨hr, ?_⟩
    rw [List.drop_zero]
    cases k with
    | zero => exact left_nil
    | succ k =>
      rw [List.cons_append, List.take_succ_cons] at he ⊢
      intro fuel' depth'
      have hp : peek (pk :: (tl ++ t).take k) = (0, .ok pk) := by
        simpa using peek_tok Ws.nil (numHead_ws hc) ((tl ++ t).take k)
      have hv' : value D B (fuel' + 1) depth' pk (pk :: (tl ++ t).take k) = (0, .error e) := by
        rw [value_num fuel' depth' hc]; exact bind_error he
      rw [nextAt, bind_ok_error hp hv']
      exact hr
  · simp only [Cut, hw]; omega

theorem atom_fits (hD : Decodes D R) {tok t : Bytes} {x : α} (h : AtomGives R B tok x) (ht : Number tok → EndsNumber t)
    (fuel depth : Nat) : ∃ pk tl, tok = pk :: tl ∧ isWs pk = false ∧ pk ≠ 93 ∧
      Fits D B (value D B (fuel + 1) depth pk) (tok ++ t) tok.length tok.length x := by
  cases h with
  | null =>
    exact ⟨_, _, rfl, by decide, by decide,
      prefix_fits (v := ()) knownNull_prefix (by decide) (value_null (D := D) (B := B)) (by simp [Jiter.knownNull, consumeIdent, matchIdent]) fuel depth⟩
  | true =>
    exact ⟨_, _, rfl, by decide, by decide,
      prefix_fits (v := true) (knownBool_prefix 116) (by decide) (value_true (D := D) (B := B)) (by simp [Jiter.knownBool, consumeIdent, matchIdent]) fuel depth⟩
  | false =>
    exact ⟨_, _, rfl, by decide, by decide,
      prefix_fits (v := false) (knownBool_prefix 102) (by decide) (value_false (D := D) (B := B)) (by simp [Jiter.knownBool, consumeIdent, matchIdent]) fuel depth⟩
  | number tok h hn => exact number_fits hD h hn (ht h) fuel depth
  | string body s h =>
    refine ⟨34, body ++ [34], rfl, by decide, by decide, ?_⟩
    have := prefix_fits hD.pre (by decide) (value_str (D := D) (B := B)) (hD.str body s t h) fuel depth
    simpa using this

mutual
theorem Val.fits (hD : Decodes D R) : ∀ (v : Val) (x : α) (fuel depth : Nat) (t : Bytes), v.Gives R B x → v.cost ≤ fuel →
    v.nesting ≤ depth → Stops v t → ∃ pk tl, v.text = pk :: tl ∧ isWs pk = false ∧ pk ≠ 93 ∧
      Fits D B (value D B fuel depth pk) (v.text ++ t) v.text.length v.text.length x
  | .atom tok, x, fuel, depth, t, hg, hc, _, hs => by
    obtain ⟨fuel, rfl⟩ : ∃ j, fuel = j + 1 := ⟨fuel - 1, by simp only [Val.cost] at hc; omega⟩
    exact atom_fits hD hg hs fuel depth
  | .arr w .nil, x, fuel, depth, t, hg, hc, _, _ => by
    obtain ⟨fuel, rfl⟩ : ∃ j, fuel = j + 1 := ⟨fuel - 1, by simp only [Val.cost] at hc; omega⟩
    obtain ⟨hw, l, hl, rfl⟩ := hg
    simp only [Items.Gives] at hl
    subst hl
    refine ⟨91, _, rfl, by decide, by decide, ?_⟩
    simp only [Val.text, Items.text, List.nil_append, List.cons_append, List.append_assoc]
    rw [value_arr]
    have hk := knownArray_fits_end (D := D) (B := B) 91 (ws_of_spaces hw) t
    rw [show (91 :: (w ++ [93])).length = (1 + w.length + 1) + 0 by simp; omega]
    refine Fits.bind hk ?_ (Nat.le_refl _) (good_noOk (by simpa using knownArray_good 91 (ws_of_spaces hw) (c := 93) (by decide) t))
    exact Fits.pure _ (B.arr [])
  | .arr w (.cons b v a more), x, fuel, depth, t, hg, hc, hd, _ => by
    obtain ⟨fuel, rfl⟩ : ∃ j, fuel = j + 1 := ⟨fuel - 1, by simp only [Val.cost] at hc; omega⟩
    obtain ⟨hw, l, hl, rfl⟩ := hg
    simp only [Val.cost] at hc
    simp only [Val.nesting] at hd
    obtain ⟨hb, pk, tl, h1, h2, h3, h4⟩ := Items.fits hD b v a more l fuel (depth - 1) t hl (by omega) (by omega)
    refine ⟨91, _, rfl, by decide, by decide, ?_⟩
    have hd0 : depth ≠ 0 := by simp only [Items.nesting] at hd; omega
    have htext : (Val.arr w (.cons b v a more)).text ++ t =
        91 :: ((w ++ b) ++ pk :: (tl ++ (a ++ (more.textMore ++ 93 :: t)))) := by
      simp [Val.text, Items.text, h1]
    have hlen : (Val.arr w (.cons b v a more)).text.length =
        (1 + (w ++ b).length) + (v.text.length + (a.length + (more.textMore.length + 1))) := by
      simp only [Val.text, Items.text, List.length_cons, List.length_append, List.length_nil]; omega
    rw [htext, hlen, value_arr]
    refine Fits.bind (knownArray_fits_item 91 (ws_of_spaces (Spaces.append hw hb)) h2 h3 _) ?_ (by
      have := congrArg List.length h1; simp only [List.length_cons] at this; omega)
      (good_noOk (by simpa [h3] using knownArray_good 91 (ws_of_spaces (Spaces.append hw hb)) h2 (tl ++ (a ++ (more.textMore ++ 93 :: t)))))
    simp only [if_neg hd0]
    rw [Nat.add_comm 1, List.drop_succ_cons, List.drop_left]
    rw [h1, List.cons_append] at h4
    rw [h1]
    exact .map B.arr h4
  | .obj w .nil, x, fuel, depth, t, hg, hc, _, _ => by
    obtain ⟨fuel, rfl⟩ : ∃ j, fuel = j + 1 := ⟨fuel - 1, by simp only [Val.cost] at hc; omega⟩
    obtain ⟨hw, l, hl, rfl⟩ := hg
    simp only [Members.Gives] at hl
    subst hl
    refine ⟨123, _, rfl, by decide, by decide, ?_⟩
    simp only [Val.text, Members.text, List.nil_append, List.cons_append, List.append_assoc]
    rw [value_obj]
    have hk := knownObject_fits_end (D := D) (B := B) D.str 123 (ws_of_spaces hw) t
    rw [show (123 :: (w ++ [125])).length = (1 + w.length + 1) + 0 by simp; omega]
    refine Fits.bind hk ?_ (Nat.le_refl _) (good_noOk (knownObject_good_end D.str 123 (ws_of_spaces hw) t))
    exact Fits.pure _ (B.obj [])
  | .obj w (.cons b k m m' v a more), x, fuel, depth, t, hg, hc, hd, _ => by
    obtain ⟨fuel, rfl⟩ : ∃ j, fuel = j + 1 := ⟨fuel - 1, by simp only [Val.cost] at hc; omega⟩
    obtain ⟨hw, l, hl, rfl⟩ := hg
    simp only [Val.cost] at hc
    simp only [Val.nesting] at hd
    obtain ⟨hb, hm, key, hs, h4⟩ := Members.fits hD b k m m' v a more l fuel (depth - 1) t hl (by omega) (by omega)
    refine ⟨123, _, rfl, by decide, by decide, ?_⟩
    have hd0 : depth ≠ 0 := by simp only [Members.nesting] at hd; omega
    have htext : (Val.obj w (.cons b k m m' v a more)).text ++ t =
        123 :: ((w ++ b) ++ 34 :: (k ++ 34 :: (m ++ 58 :: (m' ++ (v.text ++ (a ++ (more.textMore ++ 125 :: t))))))) := by
      simp [Val.text, Members.text]
    have hlen : (Val.obj w (.cons b k m m' v a more)).text.length =
        (1 + (w ++ b).length + (k.length + 2 + m.length + 1)) + (m'.length + (v.text.length + (a.length + (more.textMore.length + 1)))) := by
      simp only [Val.text, Members.text, List.length_cons, List.length_append, List.length_nil]; omega
    have hkey := objectKey_spec (hD.str k key (m ++ 58 :: (m' ++ (v.text ++ (a ++ (more.textMore ++ 125 :: t))))) hs)
      (ws_of_spaces hm)
    rw [htext, hlen, value_obj]
    refine Fits.bind (knownObject_fits_key hD.pre 123 (ws_of_spaces (Spaces.append hw hb)) _ hkey) ?_ (by omega)
      (good_noOk (knownObject_good_key hD.pre 123 (ws_of_spaces (Spaces.append hw hb)) _ hkey))
    simp only [if_neg hd0]
    rw [show 1 + (w ++ b).length + (k.length + 2 + m.length + 1) = ((w ++ b).length + (k.length + 2 + m.length + 1)) + 1 by omega,
      List.drop_succ_cons, ← List.drop_drop, List.drop_left, key_drop]
    exact .map B.obj h4
termination_by v => sizeOf v
/-- The items, from the first byte of the first one. -/
theorem Items.fits (hD : Decodes D R) : ∀ (b : Bytes) (v : Val) (a : Bytes) (more : Items) (l : List α) (fuel depth : Nat) (t : Bytes),
    (Items.cons b v a more).Gives R B l → (Items.cons b v a more).cost ≤ fuel →
    (Items.cons b v a more).nesting ≤ depth + 1 → Spaces b ∧ ∃ pk tl, v.text = pk :: tl ∧ isWs pk = false ∧ pk ≠ 93 ∧
      Fits D B (items D B fuel depth pk) (v.text ++ (a ++ (more.textMore ++ 93 :: t)))
        (v.text.length + (a.length + (more.textMore.length + 1))) (v.text.length + (a.length + (more.textMore.length + 1))) l
  | b, v, a, more, l, fuel, depth, t, hg, hc, hd => by
    obtain ⟨hb, ha, x, xs, hx, hxs, rfl⟩ := hg
    simp only [Items.cost] at hc
    simp only [Items.nesting] at hd
    obtain ⟨fuel, rfl⟩ : ∃ j, fuel = j + 1 := ⟨fuel - 1, by omega⟩
    obtain ⟨pk, tl, h1, h2, h3, h4⟩ := Val.fits hD v x fuel depth (a ++ (more.textMore ++ 93 :: t)) hx (by omega) (by omega)
      (Items.ends ha more v).stops
    refine ⟨hb, pk, tl, h1, h2, h3, ?_⟩
    simp only [items]
    refine Fits.bind h4 ?_ (by omega) (fun _ _ _ _ _ => bind_askNil _ ⟨_, _, Jiter.arrayStep_ws Ws.nil, rfl⟩)
    rw [List.drop_left]
    cases more with
    | nil =>
      simp only [Items.Gives] at hxs
      subst hxs
      simp only [Items.textMore, List.nil_append, List.length_nil]
      refine Fits.bind (m := 0) (need' := 0) (arrayStep_fits_end (D := D) (B := B) (ws_of_spaces ha) t) ?_ (Nat.le_refl _)
        (good_noOk (arrayStep_skips.good (ws_of_spaces ha) (by decide) (arrayStep_good_end t) (by omega)))
      exact Fits.pure _ [x]
    | cons b2 v2 a2 more2 =>
      obtain ⟨hb2, pk2, tl2, i1, i2, i3, i4⟩ := Items.fits hD b2 v2 a2 more2 xs fuel depth t hxs (by omega) (by omega)
      have htext : a ++ ((Items.cons b2 v2 a2 more2).textMore ++ 93 :: t) =
          a ++ 44 :: (b2 ++ pk2 :: (tl2 ++ (a2 ++ (more2.textMore ++ 93 :: t)))) := by
        simp [Items.textMore, i1]
      have hlen : a.length + ((Items.cons b2 v2 a2 more2).textMore.length + 1) =
          (a.length + (1 + b2.length)) + (v2.text.length + (a2.length + (more2.textMore.length + 1))) := by
        simp only [Items.textMore, List.length_cons, List.length_append]; omega
      rw [htext, hlen]
      refine Fits.bind (arrayStep_fits_item (ws_of_spaces ha) (ws_of_spaces hb2) i2 i3 _) ?_ (by
        have := congrArg List.length i1; simp only [List.length_cons] at this; omega)
        (good_noOk (arrayStep_skips.good (ws_of_spaces ha) (by decide) (arrayStep_good_comma (ws_of_spaces hb2) i2 i3 _) (by omega)))
      simp only
      rw [← List.drop_drop, List.drop_left, Nat.add_comm 1, List.drop_succ_cons, List.drop_left]
      rw [i1, List.cons_append] at i4
      rw [i1]
      exact .map (x :: ·) i4
termination_by b v a more => sizeOf (Items.cons b v a more)
/-- The members, from the colon of the first one. -/
theorem Members.fits (hD : Decodes D R) : ∀ (b k m m' : Bytes) (v : Val) (a : Bytes) (more : Members) (l : List (Bytes × α))
    (fuel depth : Nat) (t : Bytes),
    (Members.cons b k m m' v a more).Gives R B l → (Members.cons b k m m' v a more).cost ≤ fuel →
    (Members.cons b k m m' v a more).nesting ≤ depth + 1 → Spaces b ∧ Spaces m ∧ ∃ key, R.str k key ∧
      Fits D B (members D B fuel depth key) (m' ++ (v.text ++ (a ++ (more.textMore ++ 125 :: t))))
        (m'.length + (v.text.length + (a.length + (more.textMore.length + 1))))
        (m'.length + (v.text.length + (a.length + (more.textMore.length + 1)))) l
  | b, k, m, m', v, a, more, l, fuel, depth, t, hg, hc, hd => by
    obtain ⟨hb, hm, hm', ha, key, x, xs, hs, hx, hxs, rfl⟩ := hg
    simp only [Members.cost] at hc
    simp only [Members.nesting] at hd
    obtain ⟨fuel, rfl⟩ : ∃ j, fuel = j + 1 := ⟨fuel - 1, by omega⟩
    obtain ⟨pk, tl, h1, h2, h3, h4⟩ := Val.fits hD v x fuel depth (a ++ (more.textMore ++ 125 :: t)) hx (by omega) (by omega)
      (Members.ends ha more v).stops
    refine ⟨hb, hm, key, hs, ?_⟩
    simp only [members]
    have hpk := peek_fits (D := D) (B := B) (ws_of_spaces hm') h2 (tl ++ (a ++ (more.textMore ++ 125 :: t)))
    rw [← List.cons_append, ← h1] at hpk
    refine Fits.bind hpk ?_ (by
      have := congrArg List.length h1; simp only [List.length_cons] at this; omega) ?_
    · rw [List.drop_left]
      refine Fits.bind h4 ?_ (by omega) (fun _ _ _ _ _ => bind_askNil _ ⟨_, _, nextKey_ws D.str Ws.nil, rfl⟩)
      rw [List.drop_left]
      cases more with
      | nil =>
        simp only [Members.Gives] at hxs
        subst hxs
        simp only [Members.textMore, List.nil_append, List.length_nil]
        refine Fits.bind (m := 0) (need' := 0) (nextKey_fits_end (D := D) (B := B) D.str (ws_of_spaces ha) t) ?_ (Nat.le_refl _)
          (good_noOk ((nextKey_skips D.str).good (ws_of_spaces ha) (by decide) (nextKey_good_end D.str t) (by omega)))
        exact Fits.pure _ [(key, x)]
      | cons b2 k2 m2 m2' v2 a2 more2 =>
        obtain ⟨hb2, hm2, key2, hs2, i4⟩ := Members.fits hD b2 k2 m2 m2' v2 a2 more2 xs fuel depth t hxs (by omega) (by omega)
        have htext : a ++ ((Members.cons b2 k2 m2 m2' v2 a2 more2).textMore ++ 125 :: t) =
            a ++ 44 :: (b2 ++ 34 :: (k2 ++ 34 :: (m2 ++ 58 :: (m2' ++ (v2.text ++ (a2 ++ (more2.textMore ++ 125 :: t))))))) := by
          simp [Members.textMore]
        have hlen : a.length + ((Members.cons b2 k2 m2 m2' v2 a2 more2).textMore.length + 1) =
            (a.length + (1 + b2.length + (k2.length + 2 + m2.length + 1))) +
              (m2'.length + (v2.text.length + (a2.length + (more2.textMore.length + 1)))) := by
          simp only [Members.textMore, List.length_cons, List.length_append]; omega
        have hkey := objectKey_spec (hD.str k2 key2 (m2 ++ 58 :: (m2' ++ (v2.text ++ (a2 ++ (more2.textMore ++ 125 :: t))))) hs2)
          (ws_of_spaces hm2)
        rw [htext, hlen]
        refine Fits.bind (nextKey_fits_key hD.pre (ws_of_spaces ha) (ws_of_spaces hb2) _ hkey) ?_ (by omega)
          (good_noOk ((nextKey_skips D.str).good (ws_of_spaces ha) (by decide) (nextKey_good_key hD.pre (ws_of_spaces hb2) _ hkey)
            (by omega)))
        simp only
        rw [← List.drop_drop, List.drop_left,
          show 1 + b2.length + (k2.length + 2 + m2.length + 1) = (b2.length + (k2.length + 2 + m2.length + 1)) + 1 by omega,
          List.drop_succ_cons, ← List.drop_drop, List.drop_left, key_drop]
        exact .map ((key, x) :: ·) i4
    · intro j hj i c h
      rcases take_ws m' pk (tl ++ (a ++ (more.textMore ++ 125 :: t))) j with ⟨_, e⟩ | ⟨h', e⟩
      · rw [h1, List.cons_append, e, peek_ws (Ws.take (ws_of_spaces hm') _)] at h
        simp at h
      · omega
termination_by b k m m' v a more => sizeOf (Members.cons b k m m' v a more)
end

end Verif.Scan
