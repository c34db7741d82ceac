import Verif.Scan.IdtProps
import Verif.Scan.WholeProps

/-!
# Property C72: what `idtransform` writes means what it read

On top of C38: the output of `idtransform` can be parsed again. A second `idtransform` writes it again, `scan` reports the events of the
document, `next_value` returns the value that the document stands for.
-/

namespace Verif.Scan

open Verif.RJiter RJ
open Verif.U8Pool (Pool)

/-! ## The document without space -/

theorem spaces_empty : Spaces [] := by intro c hc; simp at hc

mutual
theorem Val.strip_strip : ∀ v : Val, v.strip.strip = v.strip
  | .atom _ => rfl
  | .arr _ is => by simp [Val.strip, Items.strip_strip is]
  | .obj _ ms => by simp [Val.strip, Members.strip_strip ms]
theorem Items.strip_strip : ∀ is : Items, is.strip.strip = is.strip
  | .nil => rfl
  | .cons _ v _ is => by simp [Items.strip, Val.strip_strip v, Items.strip_strip is]
theorem Members.strip_strip : ∀ ms : Members, ms.strip.strip = ms.strip
  | .nil => rfl
  | .cons _ _ _ _ v _ ms => by simp [Members.strip, Val.strip_strip v, Members.strip_strip ms]
end

mutual
theorem Val.strip_events : ∀ (v : Val) (p : List Bytes), v.strip.events p = v.events p
  | .atom _, _ => rfl
  | .arr _ is, p => by simp [Val.strip, Val.events, Items.strip_events is]
  | .obj _ ms, p => by simp [Val.strip, Val.events, Members.strip_events ms]
theorem Items.strip_events : ∀ (is : Items) (p : List Bytes), is.strip.events p = is.events p
  | .nil, _ => rfl
  | .cons _ v _ is, p => by simp [Items.strip, Items.events, Val.strip_events v, Items.strip_events is]
theorem Members.strip_events : ∀ (ms : Members) (p : List Bytes), ms.strip.events p = ms.events p
  | .nil, _ => rfl
  | .cons _ _ _ _ v _ ms, p => by simp [Members.strip, Members.events, Val.strip_events v, Members.strip_events ms]
end

mutual
theorem Val.strip_fit {R : Room} : ∀ (v : Val) (p : List Bytes), v.Fit R p → v.strip.Fit R p
  | .atom _, _, h => h
  | .arr _ is, _, h => ⟨h.1, Items.strip_fit is _ h.2⟩
  | .obj _ ms, _, h => Members.strip_fit ms _ h
theorem Items.strip_fit {R : Room} : ∀ (is : Items) (p : List Bytes), is.Fit R p → is.strip.Fit R p
  | .nil, _, h => h
  | .cons _ v _ is, _, h => ⟨Val.strip_fit v _ h.1, Items.strip_fit is _ h.2⟩
theorem Members.strip_fit {R : Room} : ∀ (ms : Members) (p : List Bytes), ms.Fit R p → ms.strip.Fit R p
  | .nil, _, h => h
  | .cons _ _ _ _ v _ ms, _, h => ⟨h.1, Val.strip_fit v _ h.2.1, Members.strip_fit ms _ h.2.2⟩
end

mutual
theorem Val.strip_keys {P : Bytes → Prop} : ∀ v : Val, v.Keys P → v.strip.Keys P
  | .atom _, h => h
  | .arr _ is, h => Items.strip_keys is h
  | .obj _ ms, h => Members.strip_keys ms h
theorem Items.strip_keys {P : Bytes → Prop} : ∀ is : Items, is.Keys P → is.strip.Keys P
  | .nil, h => h
  | .cons _ v _ is, h => ⟨Val.strip_keys v h.1, Items.strip_keys is h.2⟩
theorem Members.strip_keys {P : Bytes → Prop} : ∀ ms : Members, ms.Keys P → ms.strip.Keys P
  | .nil, h => h
  | .cons _ _ _ _ v _ ms, h => ⟨h.1, Val.strip_keys v h.2.1, Members.strip_keys ms h.2.2⟩
end

theorem headMeets_whole (v : Val) (L : Nat) (b : Bytes) : v.HeadMeets (rules wholeMode L) b := by
  cases v with
  | atom => trivial
  | arr => trivial
  | obj w ms => cases ms <;> trivial

theorem IsAtom.mono {num num' str str' : Bytes → Prop} (hn : ∀ x, num x → num' x) (hs : ∀ x, str x → str' x) {tok : Bytes}
    (h : IsAtom num str tok) : IsAtom num' str' tok := by
  cases h with
  | null => exact .null
  | true => exact .true
  | false => exact .false
  | number _ h h' => exact .number _ h (hn _ h')
  | string b h h' => exact .string b h (hs _ h')

section
variable {M : Mode} {L : Nat}

mutual
theorem Val.strip_meets : ∀ v : Val, v.Meets (rules M L) → v.strip.Meets (rules wholeMode L)
  | .atom _, h => IsAtom.mono (fun _ h => h) (fun _ _ => trivial) h
  | .arr _ is, h => ⟨spaces_empty, Items.strip_meets is h.2⟩
  | .obj _ ms, h => ⟨spaces_empty, Members.strip_meets ms h.2⟩
theorem Items.strip_meets : ∀ is : Items, is.Meets (rules M L) → is.strip.Meets (rules wholeMode L)
  | .nil, _ => trivial
  | .cons _ v _ is, h => ⟨spaces_empty, Val.strip_meets v h.2.1, spaces_empty, Items.strip_meets is h.2.2.2⟩
theorem Members.strip_meets : ∀ ms : Members, ms.Meets (rules M L) → ms.strip.Meets (rules wholeMode L)
  | .nil, _ => trivial
  | .cons _ k m _ v _ ms, h => by
    obtain ⟨_, ⟨h1, h2⟩, _, _, h3, _, _, h4⟩ := h
    refine ⟨spaces_empty, ⟨h1, ?_⟩, spaces_empty, spaces_empty, Val.strip_meets v h3, headMeets_whole _ _ _, spaces_empty, Members.strip_meets ms h4⟩
    have : k.length + m.length + 4 ≤ L := h2
    show k.length + 0 + 4 ≤ L
    omega
end
end

section
variable {α : Type} {R : Reading} {B : Build α}

mutual
theorem Val.strip_gives : ∀ (v : Val) (x : α), v.Gives R B x → v.strip.Gives R B x
  | .atom _, _, h => h
  | .arr _ is, _, ⟨_, l, h, e⟩ => ⟨spaces_empty, l, Items.strip_gives is l h, e⟩
  | .obj _ ms, _, ⟨_, l, h, e⟩ => ⟨spaces_empty, l, Members.strip_gives ms l h, e⟩
theorem Items.strip_gives : ∀ (is : Items) (l : List α), is.Gives R B l → is.strip.Gives R B l
  | .nil, _, h => h
  | .cons _ v _ is, _, ⟨_, _, x, xs, h1, h2, e⟩ => ⟨spaces_empty, spaces_empty, x, xs, Val.strip_gives v x h1, Items.strip_gives is xs h2, e⟩
theorem Members.strip_gives : ∀ (ms : Members) (l : List (Bytes × α)), ms.Gives R B l → ms.strip.Gives R B l
  | .nil, _, h => h
  | .cons _ _ _ _ v _ ms, _, ⟨_, _, _, _, k, x, xs, h0, h1, h2, e⟩ =>
    ⟨spaces_empty, spaces_empty, spaces_empty, spaces_empty, k, x, xs, h0, Val.strip_gives v x h1, Members.strip_gives ms xs h2, e⟩
end
end

mutual
theorem Val.strip_nesting : ∀ v : Val, v.strip.nesting = v.nesting
  | .atom _ => rfl
  | .arr _ is => Items.strip_nesting is
  | .obj _ ms => Members.strip_nesting ms
theorem Items.strip_nesting : ∀ is : Items, is.strip.nesting = is.nesting
  | .nil => rfl
  | .cons _ v _ is => by simp [Items.strip, Items.nesting, Val.strip_nesting v, Items.strip_nesting is]
theorem Members.strip_nesting : ∀ ms : Members, ms.strip.nesting = ms.nesting
  | .nil => rfl
  | .cons _ _ _ _ v _ ms => by simp [Members.strip, Members.nesting, Val.strip_nesting v, Members.strip_nesting ms]
end

theorem Val.text_pos {M : Mode} {L : Nat} (v : Val) (h : v.Meets (rules M L)) : 0 < v.text.length := by
  cases v with
  | arr => simp [Val.text]
  | obj => simp [Val.text]
  | atom tok =>
    cases h with
    | null => decide
    | true => decide
    | false => decide
    | string => simp [Val.text]
    | number _ hn =>
      obtain ⟨m, i, f, e, rfl, _, hi, _⟩ := hn
      have : i ≠ [] := by
        rcases hi with rfl | ⟨⟨h, _⟩, _⟩
        · simp
        · exact h
      have := List.length_pos_iff.mpr this
      simp only [Val.text, List.length_append]
      omega

/-! ## C72 -/

/-- **C72, partial.** Full statement: for every document that `idtransform` can copy. It is false for a number, see `C72_number`, and for
documents that it does not copy, see C38. The hypotheses up to `hw` are those of `C38_output_partial`; of the document they say in addition
that it is not a number. What the first call wrote is read at once into a buffer that has room for it: the second call writes the same
bytes, and `scan` reports the events of the document. Read in any chunks, `next_value` returns the value of the document. -/
theorem C72_again_partial (M : Mode) (L F : Nat) (R : Room) (l : List (Pos × Bytes)) (b t : Bytes) (v : Val) (rj : RJ)
    (w : Writer) (pool : Pool) (hi : Inv M L F rj) (hrd : Ready rj) (hst : Holds pool R l) (hr : rj.rest = b ++ (v.text ++ t))
    (hb : Spaces b) (hv : v.Meets (rules M L)) (hh : v.HeadMeets (rules M L) b) (he : Ends v t) (hfit : R.Fits (names l) nameTop)
    (hfits : v.Fit R (nameTop :: names l)) (hk : v.Keys Usual) (hw : w = ⟨[], []⟩) (hnum : ∀ tok, v = .atom tok → ¬ Number tok) :
    ∃ rj' out pool', (∀ turns, v.text.length + 2 ≤ turns → idtransform turns F rj w pool = ((rj', ⟨out, []⟩, pool'), .ok ())) ∧
      ∀ (reader : Reader) (buf : Bytes) (F2 : Nat), reader.pending = out → out.length ≤ buf.length → 8 ≤ buf.length → L ≤ buf.length →
        2 * reader.size + 2 ≤ F2 →
        (reader.OneChunk → ∀ pool2, Holds pool2 R l →
          (∃ rj2 pool2', ∀ turns, out.length + 2 ≤ turns →
            idtransform turns F2 (.new reader buf) w pool2 = ((rj2, ⟨out, []⟩, pool2'), .ok ())) ∧
          ∃ st, (∀ turns, out.length + 2 ≤ turns → scan turns F2 watch ⟨[], false⟩ ⟨.new reader buf, [], pool2⟩ = (st, .ok ())) ∧
            st.baton = v.events (nameTop :: names l)) ∧
        (reader.Clean → v.nesting ≤ 200 → ∀ x, v.Gives .value .value x → ∃ s', (RJ.new reader buf).nextValue F2 = (s', .ok x) ∧ s'.rest = []) := by
  obtain ⟨rj', pool', e1, _, _⟩ := C38_output_partial M L F R l b t v rj w pool hi hrd hst hr hb hv hh he hfit hfits hk (by rw [hw])
  subst hw
  simp only [List.nil_append] at e1
  refine ⟨rj', v.strip.text, pool', e1, ?_⟩
  intro reader buf F2 hp hlen h8 hl hf
  have hrest : (RJ.new reader buf).rest = v.strip.text := by rw [← hp]; rfl
  have hends : ∀ t, Ends v.strip t := by
    intro t
    cases v with
    | atom tok => exact fun h => absurd h (hnum tok rfl)
    | arr => trivial
    | obj => trivial
  refine ⟨?_, ?_⟩
  · intro h1 pool2 hst2
    have hinv := whole_new reader buf L F2 h1 (by rw [hp]; exact hlen) h8 hl hf
    constructor
    · obtain ⟨rj2, pool2', e2, _, _⟩ := C38_output_partial wholeMode L F2 R l [] [] v.strip (.new reader buf) ⟨[], []⟩ pool2 hinv
        (ready_new _ _) hst2 (by rw [hrest]; simp) spaces_empty (Val.strip_meets v hv) (headMeets_whole _ _ _) (hends _) hfit
        (Val.strip_fit v _ hfits) (Val.strip_keys v hk) rfl
      refine ⟨rj2, pool2', fun turns ht => ?_⟩
      rw [e2 turns ht, Val.strip_strip]
      rfl
    · obtain ⟨st, e2, h2⟩ := C31_events_partial wholeMode L F2 ⟨[], false⟩ rfl R l [([], v.strip)] [] ⟨.new reader buf, [], pool2⟩ hinv
        (ready_new _ _) hst2 (by rw [hrest]; simp [Docs.text])
        ⟨spaces_empty, Val.strip_meets v hv, headMeets_whole _ _ _, hends _, spaces_empty⟩ hfit ⟨Val.strip_fit v _ hfits, trivial⟩
      refine ⟨st, fun turns ht => e2 turns ?_, ?_⟩
      · show 1 + (RJ.new reader buf).rest.length + 1 ≤ turns
        rw [hrest]; omega
      · rw [h2.baton]
        simp [Docs.events, Val.strip_events]
  · intro hc hd x hx
    have hpos := Val.text_pos v.strip (Val.strip_meets v hv)
    obtain ⟨s', e, _, h⟩ := (C68_next_partial (.new reader buf) F2 (sync_new _ _) hc (by
        unfold enoughFuel
        show 2 * reader.size + 2 ≤ F2
        exact hf) [] v.strip (by simpa using hrest) spaces_empty (by rw [Val.strip_nesting]; exact hd) hlen
        (.inr (.inr hpos))).1 x (Val.strip_gives v x hx)
    exact ⟨s', e, h⟩

/-- The hypotheses of `C72_again_partial` are met by ` [{"k": [1,true]}, "x"] `, byte by byte in a buffer of eight bytes, and those on the
second run by what it writes. -/
example : Inv (streamMode false false 8) 8 100 exSt.rj ∧ Ready exSt.rj ∧ Holds exSt.pool exRoom [] ∧
    exSt.rj.rest = [32] ++ (exArr.text ++ [32]) ∧ exArr.Meets (rules (streamMode false false 8) 8) ∧
    exArr.HeadMeets (rules (streamMode false false 8) 8) [32] ∧ Ends exArr [32] ∧ exRoom.Fits (names []) nameTop ∧
    exArr.Fit exRoom [nameTop] ∧ exArr.Keys Usual ∧ (∀ tok, exArr = .atom tok → ¬ Number tok) ∧
    (idtransform 40 100 exSt.rj ⟨[], []⟩ exPool).1.2.1.out = [91] ++ exArr.strip.text.tail ∧
    Reader.OneChunk [.data 91 exArr.strip.text.tail] ∧ Reader.Clean [.data 91 exArr.strip.text.tail] ∧ exArr.nesting ≤ 200 :=
  ⟨exSt_inv, ready_new _ _, exPool_holds, by decide, exSt_meets.2.1, trivial, trivial, by decide, exArr_fit.1,
    ⟨⟨by rw [usual_iff]; decide, ⟨trivial, trivial, trivial⟩, trivial⟩, trivial, trivial⟩, fun _ h => by simp [exArr] at h,
    by decide +kernel, trivial, by decide, by decide⟩

/-- **C72 is false** of a number: of `1` and a space the output is `1`, and a second `idtransform` does not copy this. -/
theorem C72_number : ∃ (reader reader2 : Reader) (buf : Bytes), reader.OneChunk ∧ reader.pending = [49, 32] ∧ reader2.OneChunk ∧ 40 ≤ buf.length ∧
    ∀ turns, (idtransform (turns + 3) 100 (.new reader buf) ⟨[], []⟩ exPool).2 = .ok () ∧
      (idtransform (turns + 3) 100 (.new reader buf) ⟨[], []⟩ exPool).1.2.1.out = reader2.pending ∧
      (idtransform (turns + 3) 100 (.new reader2 buf) ⟨[], []⟩ exPool).2 ≠ .ok () ∧
      (idtransform (turns + 3) 100 (.new reader2 buf) ⟨[], []⟩ exPool).1.2.1.out = [] := by
  refine ⟨[.data 49 [32]], [.data 49 []], List.replicate 40 0, trivial, by decide, trivial, by decide, ?_⟩
  intro turns
  refine ⟨rfl, rfl, ?_, rfl⟩
  intro h
  have h2 : (idtransform (turns + 3) 100 (.new [.data 49 []] (List.replicate 40 0)) ⟨[], []⟩ exPool).2 = .err (.unhandledPeek 49 1) := rfl
  rw [h2] at h
  simp at h

end Verif.Scan
