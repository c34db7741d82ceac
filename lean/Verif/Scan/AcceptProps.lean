import Verif.Scan.Accept
import Verif.Scan.BadProps
import Verif.Scan.IdtProps
import Verif.Scan.ReturnsProps

/-!
# What `scan` and `idtransform` accept (C65, C66)
-/

namespace Verif.Scan

open Verif.RJiter
open Verif.RJiter.Jiter
open Verif.U8Pool (Pool PRes PoolError)

variable {β : Type}

/-! ## Clients -/

theorem Watches.sees {cb : Callbacks β} {O : Observer β} (h : Watches cb O) (F : Nat) (strict : Care) : Sees cb O.handler F strict := by
  refine ⟨?_, h.finish⟩
  intro p path b s _
  have hx := h.start p path b s
  simp only [Observer.handler]
  rcases hf : cb.find p ⟨path, path.length⟩ b with ⟨b', act⟩
  rw [hf] at hx
  cases act with
  | none => simp only at hx ⊢; intro _; rw [hx]
  | some act =>
    simp only at hx ⊢
    rcases ha : act s b' with ⟨⟨s', b''⟩, o⟩
    rw [ha] at hx
    cases o with
    | op o =>
      cases o with
      | none =>
        simp only at hx ⊢
        exact ⟨hx.1, fun _ => by rw [hx.2]⟩
      | valueIsConsumed => exact hx.elim
      | error m => trivial
    | panic => exact hx.elim
    | diverge => exact hx.elim

theorem copyAtom_accepts {F : Nat} {strict : Care} {s s' : RJ} {c : Byte} {t : Bytes} {w w' : Writer} (h : Fine F strict s)
    (hr : s.rest = c :: t) (hw : w.plan = []) (hok : copyAtom F c s w = ((s', w'), .ok ())) :
    ∃ tok, Atom F strict s s' tok ∧ w' = ⟨w.out ++ tok, []⟩ := by
  unfold copyAtom at hok
  have hword : ∀ {α : Type} (word : Bytes) (x : RJ × Res α), copyWord word w x = ((s', w'), .ok ()) →
      w' = ⟨w.out ++ word, []⟩ ∧ ∃ v, x = (s', .ok v) := by
    intro α word x hx
    rcases x with ⟨s1, v | e | _ | _⟩
    · simp only [copyWord, writeAll_clean hw, ioResult, Prod.mk.injEq, and_true] at hx
      exact ⟨hx.2.symm, v, by rw [hx.1]⟩
    · simp [copyWord] at hx
    · simp [copyWord] at hx
    · simp [copyWord] at hx
  by_cases h1 : c = 34
  · subst h1
    rw [if_pos rfl, writeAll_clean hw] at hok
    simp only at hok
    rcases hx : s.writeLongBytes F ⟨w.out ++ [34], []⟩ with ⟨⟨s1, w1⟩, r⟩
    rw [hx] at hok
    cases r with
    | ok u =>
      obtain ⟨body, ha, ho⟩ := string_atom h hr hx
      have hp : w1.plan = [] := by
        have := handleLong_wrote .raw F s ⟨w.out ++ [34], []⟩
        rw [show RJ.handleLong .raw F s ⟨w.out ++ [34], []⟩ = _ from hx] at this
        rcases this with h | ⟨_, _, _, h⟩
        · exact h.clean rfl
        · cases h
      simp only [writeAll_clean hp, ioResult, Prod.mk.injEq, and_true] at hok
      obtain ⟨rfl, rfl⟩ := hok
      exact ⟨_, ha, by rw [ho]; simp⟩
    | err e => simp at hok
    | panic => simp at hok
    | diverge => simp at hok
  rw [if_neg h1] at hok
  by_cases h2 : c = 110
  · subst h2
    rw [if_pos rfl] at hok
    obtain ⟨e, v, hx⟩ := hword _ _ hok
    exact ⟨_, null_atom h hr hx, e⟩
  rw [if_neg h2] at hok
  by_cases h3 : c = 116
  · subst h3
    rw [if_pos rfl] at hok
    obtain ⟨e, v, hx⟩ := hword _ _ hok
    exact ⟨_, true_atom h hr hx, e⟩
  rw [if_neg h3] at hok
  by_cases h4 : c = 102
  · subst h4
    rw [if_pos rfl] at hok
    obtain ⟨e, v, hx⟩ := hword _ _ hok
    exact ⟨_, false_atom h hr hx, e⟩
  rw [if_neg h4] at hok
  rcases hx : s.nextNumberBytes F with ⟨s1, r⟩
  rw [hx] at hok
  cases r with
  | ok u =>
    simp only [writeAll_clean hw, ioResult, Prod.mk.injEq, and_true] at hok
    obtain ⟨rfl, rfl⟩ := hok
    exact ⟨_, number_atom h hx, rfl⟩
  | err e => simp at hok
  | panic => simp at hok
  | diverge => simp at hok

theorem guarded_sees (F : Nat) (strict : Care) : Sees (guarded F) idtH F strict := by
  refine ⟨?_, ?_⟩
  · intro p path b s hf
    cases p with
    | none =>
      cases path with
      | nil => exact fun _ => rfl
      | cons key r =>
        simp only [guarded, Idt.find, idtH]
        by_cases hk : key ≠ nameTop ∧ key ≠ nameArray
        · rw [if_pos hk, if_pos hk]
          simp only [Option.map_some]
          generalize hb : ({ b with seqpos := if b.seqpos = .atBeginning then .atBeginningKey key else .inMiddleKey key } : Idt) = b1
          have hw : b1.w = b.w := by rw [← hb]
          unfold guardA
          by_cases hp : b1.w.plan = []
          · rw [if_pos hp]; simp only [if_pos (show b.w.plan = [] from hw ▸ hp)]
            simp only [Idt.onKey, Idt.writeSeqpos_clean hp]
            exact ⟨trivial, fun _ => trivial⟩
          · rw [if_neg hp]
            trivial
        · rw [if_neg hk, if_neg hk]
          exact fun _ => rfl
    | atom =>
      simp only [guarded, Idt.find, idtH, Option.map_some]
      generalize hb : ({ b with isTop := decide (path.length < 2) } : Idt) = b1
      have hw : b1.w = b.w := by rw [← hb]
      unfold guardA
      by_cases hp : b1.w.plan = []
      · rw [if_pos hp]; simp only [if_pos (show b.w.plan = [] from hw ▸ hp)]
        simp only [Idt.onAtom, Idt.writeSeqpos_clean hp]
        rcases hx : s.peek F with ⟨s1, c | e | _ | _⟩
        · obtain ⟨ws, t, e, hws, hc, hs, hm⟩ := RJ.peek_text hf.usable.sync hf.len hf.usable.fuel hx
          have hf1 : Fine F strict s1 := hf.loop hm hx
          simp only
          rcases hy : copyAtom F c s1 b1.led.w with ⟨⟨s2, w2⟩, u | e2 | _ | _⟩
          · obtain ⟨tok, ⟨hf2, hwm, ws2, hws2, hlo, hpt, e2⟩, e3⟩ := copyAtom_accepts hf1 hs rfl hy
            refine ⟨hf2, hwm, ws ++ ws2, .atom tok, (Blank.of_aws hws).append hws2, trivial, hlo, fun _ => trivial, hpt, ?_, ?_⟩
            · rw [e, ← hs, e2, List.append_assoc]; rfl
            · rw [e3]; rfl
          · trivial
          · trivial
          · trivial
        · trivial
        · trivial
        · trivial
      · rw [if_neg hp]
        trivial
    | array =>
      simp only [guarded, Idt.find, idtH, Option.map_some]
      generalize hb : ({ b with isTop := decide (path.length < 2) } : Idt) = b1
      have hw : b1.w = b.w := by rw [← hb]
      unfold guardA
      by_cases hp : b1.w.plan = []
      · rw [if_pos hp]; simp only [if_pos (show b.w.plan = [] from hw ▸ hp)]
        simp only [Idt.onStruct, Idt.writeSeqpos_clean hp, Idt.write_clean (b := b1.led) rfl]
        exact ⟨trivial, fun _ => trivial⟩
      · rw [if_neg hp]
        trivial
    | object =>
      simp only [guarded, Idt.find, idtH, Option.map_some]
      generalize hb : ({ b with isTop := decide (path.length < 2) } : Idt) = b1
      have hw : b1.w = b.w := by rw [← hb]
      unfold guardA
      by_cases hp : b1.w.plan = []
      · rw [if_pos hp]; simp only [if_pos (show b.w.plan = [] from hw ▸ hp)]
        simp only [Idt.onStruct, Idt.writeSeqpos_clean hp, Idt.write_clean (b := b1.led) rfl]
        exact ⟨trivial, fun _ => trivial⟩
      · rw [if_neg hp]
        trivial
  · exact (guarded_implements (M := wholeMode) (L := 0) (F := F)).finish

/-! ## JSON documents are loose -/

theorem skim_plain {wide : Bool} : ∀ (a : Bytes), (∀ c ∈ a, PlainByte c) → Skim wide a
  | [], _ => .nil
  | c :: a, h => by
    have hc := h c (by simp)
    exact .byte c a (by have := hc.2.2; rw [UInt8.lt_iff_toNat_lt] at this; exact Nat.le_of_not_lt this) hc.1 hc.2.1 (skim_plain a fun x hx => h x (by simp [hx]))

theorem RawBody.skim {body : Bytes} (h : RawBody body) (wide : Bool) : Skim wide body := by
  induction h with
  | nil => exact .nil
  | char ch r hp _ ih => exact (skim_plain _ (enc_plain hp)).append ih
  | esc e x r he _ ih =>
    refine .esc e r ?_ ih
    rcases (escape_mem he).1 with h | h | h | h | h | h | h | h <;> simp [h]
  | uni a b c d v r hx _ ih =>
    obtain ⟨x, y, z, w, ha, hb, hc, hd, _⟩ := hx
    refine .esc 117 _ (by decide) ((skim_plain [a, b, c, d] ?_).append ih)
    intro i hi
    simp only [List.mem_cons, List.not_mem_nil, or_false] at hi
    rcases hi with rfl | rfl | rfl | rfl
    · exact hex_plain ha
    · exact hex_plain hb
    · exact hex_plain hc
    · exact hex_plain hd

theorem blank_spaces {l : Bytes} (h : Spaces l) : Blank l := blank_ws ((ws_iff l).mpr h)

section
variable {num str : Bytes → Prop} {key : Bytes → Bytes → Prop} {head : Bytes → Bytes → Bytes → Bytes → Prop} {strict : Prop}

theorem IsAtom.loose {tok : Bytes} (h : IsAtom num str tok) : LooseAtom strict tok := by
  cases h with
  | null => exact .null
  | true => exact .true
  | false => exact .false
  | number _ h _ => exact .number _ h
  | string body h _ => exact .string body (fun _ => RawBody.skim h _) (RawBody.skim h _).weak

mutual
theorem Val.Meets.loose : ∀ {v : Val}, v.Meets (.json num str key head) → v.Loose strict ∧ v.Tight
  | .atom _, h => ⟨IsAtom.loose h, trivial⟩
  | .arr _ is, h => ⟨⟨blank_spaces h.1, Items.Meets.loose (is := is) h.2⟩, trivial⟩
  | .obj _ ms, h => ⟨⟨.inl (blank_spaces h.1), Members.Meets.loose (ms := ms) h.2⟩, blank_spaces h.1⟩
theorem Items.Meets.loose : ∀ {is : Items}, is.Meets (.json num str key head) → is.Loose strict
  | .nil, _ => trivial
  | .cons _ v _ more, h =>
    ⟨blank_spaces h.1, (Val.Meets.loose (v := v) h.2.1).2, (Val.Meets.loose (v := v) h.2.1).1, blank_spaces h.2.2.1,
      Items.Meets.loose (is := more) h.2.2.2⟩
theorem Members.Meets.loose : ∀ {ms : Members}, ms.Meets (.json num str key head) → ms.Loose strict
  | .nil, _ => trivial
  | .cons _ _ _ _ v _ more, h =>
    ⟨blank_spaces h.1, RawBody.skim h.2.1.1 _, h.2.2.1, blank_spaces h.2.2.2.1, (Val.Meets.loose (v := v) h.2.2.2.2.1).1,
      blank_spaces h.2.2.2.2.2.2.1, Members.Meets.loose (ms := more) h.2.2.2.2.2.2.2⟩
end

/-- JSON documents are loose. -/
theorem Docs.Meets.loose {tail : Bytes} : ∀ {ds : Docs}, Docs.Meets (.json num str key head) ds tail → Docs.Loose strict ds tail
  | [], h => blank_spaces h
  | (_, _) :: _, h => ⟨blank_spaces h.1, (Val.Meets.loose h.2.1).1, Docs.Meets.loose h.2.2.2.2⟩
end

/-! ## C65 -/

/-- **C65, partial.** Full statement: `scan` returns `Ok` only if the input is a sequence of JSON documents. It is false, see
`C65_double_brace`, `C65_form_feed`, `C65_strings` and `C65_half_escape`. Proved, for any input in any chunks, with a reader that may fail, and a
buffer of at least eight bytes: if `scan` (without SSE tokens, for a client that does not touch the parser) returns `Ok`, then
all of the input is a sequence of loose documents, in which no top-level number is cut short unless it fills the buffer, and the
callbacks were called for these documents as `Docs.scan` says. -/
theorem C65_accepted_partial (turns F : Nat) (cb : Callbacks β) (O : Observer β) (R : Room) (l : List (Pos × Bytes)) (st st' : St β)
    (hW : Watches cb O) (hu : Usable F st.rj) (hst : Holds st.pool R l) (h : scan turns F cb ⟨[], false⟩ st = (st', .ok ())) :
    ∃ ds tail, st.rj.rest = Docs.text ds tail ∧ Docs.Loose (Harmless st.rj) ds tail ∧
      Docs.Parted st.rj.b.buf.length ds tail ∧ Docs.scan O.handler R (nameTop :: names l) ds st.baton = .done st'.baton ∧ st'.rj.rest = [] := by
  rcases scan_back (hW.sees F ⟨Harmless st.rj, st.rj.b.buf.length⟩) rfl turns ⟨hu, id, rfl⟩ hst h with ⟨h1, h2, h3⟩ | ⟨ws, v, x, b1, h1, h2, _, h3, _, hp, h4, h5⟩
  · exact ⟨[], _, rfl, h1, trivial, by rw [h2]; rfl, h3⟩
  · simp only [Tail, ends, Bool.false_eq_true, if_false] at h5
    obtain ⟨ds, tail, j1, j2, jp, j3, j4⟩ := h5
    refine ⟨(ws, v) :: ds, tail, by rw [h1, j1]; rfl, ⟨h2, h3, j2⟩, ⟨j1 ▸ hp, jp⟩, ?_, j4⟩
    simp only [names, List.map_cons] at h4
    simp only [Docs.scan]
    rw [show v.scan O.handler R (nameTop :: names l) st.baton = .done b1 from h4]
    exact j3

/-- **C65, partial**, with `stop_early`: an `Ok` means that there is one loose document, or nothing but space; what is behind the document
is not consumed. -/
theorem C65_first_partial (turns F : Nat) (cb : Callbacks β) (O : Observer β) (R : Room) (l : List (Pos × Bytes)) (st st' : St β)
    (hW : Watches cb O) (hu : Usable F st.rj) (hst : Holds st.pool R l) (h : scan turns F cb ⟨[], true⟩ st = (st', .ok ())) :
    (Blank st.rj.rest ∧ st'.baton = st.baton ∧ st'.rj.rest = []) ∨
    ∃ ws, ∃ v : Val, st.rj.rest = ws ++ (v.text ++ st'.rj.rest) ∧ Blank ws ∧ v.Loose (Harmless st.rj) ∧
      v.Parted st.rj.b.buf.length st'.rj.rest ∧ v.scan O.handler R (nameTop :: names l) st.baton = .done st'.baton := by
  rcases scan_back (hW.sees F ⟨Harmless st.rj, st.rj.b.buf.length⟩) rfl turns ⟨hu, id, rfl⟩ hst h with h1 | ⟨ws, v, x, b1, h1, h2, _, h3, _, hp, h4, h5⟩
  · exact .inl h1
  · simp only [Tail, ends, if_true] at h5
    obtain ⟨rfl, rfl⟩ := h5
    exact .inr ⟨ws, v, h1, h2, h3, hp, h4⟩

/-! ### Example -/

/-- ` [{"k": [1,true]}, "x"] ` byte by byte. -/
example : Watches watch logger ∧ Usable 100 exSt.rj ∧ Holds exSt.pool exRoom [] ∧ Harmless exSt.rj ∧
    scan 60 100 watch ⟨[], false⟩ exSt = ((scan 60 100 watch ⟨[], false⟩ exSt).1, .ok ()) :=
  ⟨watch_logs, usable_new _ _ _ (by decide) (by decide), exPool_holds, .inr (by decide), by decide +kernel⟩

/-- `{"k" : {"x":1}}]` at once, with `stop_early`. -/
example : Watches watch logger ∧ Usable 100 exSt1.rj ∧ Holds exSt1.pool exRoom [] ∧
    scan 60 100 watch ⟨[], true⟩ exSt1 = ((scan 60 100 watch ⟨[], true⟩ exSt1).1, .ok ()) :=
  ⟨watch_logs, usable_new _ _ _ (by decide) (by decide), exPool_holds, by decide +kernel⟩

/-! ### The false parts -/

/-- **C65, a false part.** `{{}` is an empty object, and `{"a" {"b":1}` an object with one member. -/
theorem C65_double_brace :
    (scan 40 100 watch ⟨[], false⟩ ⟨.new [.data 123 [123, 125]] (List.replicate 40 0), [], exPool⟩).2 = .ok () ∧
    (scan 40 100 watch ⟨[], false⟩ ⟨.new [.data 123 [34, 97, 34, 32, 123, 34, 98, 34, 58, 49, 125]] (List.replicate 40 0), [], exPool⟩).2 =
      .ok () := by
  decide +kernel

/-- **C65, a false part.** A form feed is accepted as space: `[1,␌2]`. -/
theorem C65_form_feed :
    (scan 40 100 watch ⟨[], false⟩ ⟨.new [.data 91 [49, 44, 12, 50, 93]] (List.replicate 40 0), [], exPool⟩).2 = .ok () := by
  decide +kernel

/-- **C65, a false part.** The bytes of a string are not looked at closely: `"\uzz"`, and a string with the byte `0xff`. -/
theorem C65_strings :
    (scan 40 100 watch ⟨[], false⟩ ⟨.new [.data 34 [92, 117, 122, 122, 34]] (List.replicate 40 0), [], exPool⟩).2 = .ok () ∧
    (scan 40 100 watch ⟨[], false⟩ ⟨.new [.data 34 [255, 34]] (List.replicate 40 0), [], exPool⟩).2 = .ok () := by
  decide +kernel

/-- **C65, a false part**, and the reason for `Harmless`: `["éé","\"]` without the closing quote of the second string, in two chunks,
is taken for an array of two strings. When the first chunk ends, the byte behind its end is left over from the `é`, so the escape
is cut in two. -/
theorem C65_half_escape : ∃ reader : Reader, reader.Clean ∧ reader.pending = "[\"éé\",\"\\\"]".toUTF8.toList ∧
    (scan 40 100 watch ⟨[], false⟩ ⟨.new reader (List.replicate 16 0), [], exPool⟩).2 = .ok () := by
  refine ⟨[.data 91 [34, 195, 169, 195, 169, 34, 44, 34, 92, 34], .data 93 []], by decide, by decide +kernel, by decide +kernel⟩

/-! ## C66 -/

variable {R : Room}

theorem Handler.around_done {H : Handler β} {p : Pseudo} {path : List Bytes} {v : Val} {inner : β → Out β} {b b' : β}
    (hn : (H.start p path v b).2 ≠ .valueIsConsumed) (h : H.around p path v inner b = .done b') : ∃ b1, inner b1 = .done b' := by
  unfold Handler.around at h
  rcases hs : H.start p path v b with ⟨b1, _ | m | _⟩
  · rw [hs] at h; exact ⟨b1, h⟩
  · rw [hs] at hn; exact absurd rfl hn
  · rw [hs] at h; simp at h

theorem idtH_enters {p : Pseudo} (hp : p ≠ .atom) (path : List Bytes) (v : Val) (b : Idt) : (idtH.start p path v b).2 ≠ .valueIsConsumed := by
  cases p with
  | atom => exact absurd rfl hp
  | none =>
    simp only [idtH]
    split
    · split
      · split <;> simp
      · simp
    · simp
  | array => simp only [idtH]; split <;> simp
  | object => simp only [idtH]; split <;> simp

mutual
theorem Val.fit_of_idt : ∀ (v : Val) (path : List Bytes) (b b' : Idt), v.scan idtH R path b = .done b' → v.Fit R path
  | .atom _, _, _, _, _ => trivial
  | .arr _ items, path, b, b', h => by
    simp only [Val.scan] at h
    obtain ⟨b1, h⟩ := Handler.around_done (idtH_enters (by simp) _ _ _) h
    by_cases hf : R.Fits path nameArray
    · rw [if_pos hf] at h
      obtain ⟨b2, hx, _⟩ := Out.bind_done h
      exact ⟨hf, Items.fit_of_idt items _ _ _ hx⟩
    · rw [if_neg hf] at h
      simp at h
  | .obj _ ms, path, b, b', h => by
    simp only [Val.scan] at h
    obtain ⟨b1, h⟩ := Handler.around_done (idtH_enters (by simp) _ _ _) h
    obtain ⟨b2, hx, _⟩ := Out.bind_done h
    exact Members.fit_of_idt ms _ _ _ hx
theorem Items.fit_of_idt : ∀ (is : Items) (path : List Bytes) (b b' : Idt), is.scan idtH R path b = .done b' → is.Fit R path
  | .nil, _, _, _, _ => trivial
  | .cons _ v _ more, path, b, b', h => by
    simp only [Items.scan] at h
    obtain ⟨b1, h1, h2⟩ := Out.bind_done h
    exact ⟨Val.fit_of_idt v _ _ _ h1, Items.fit_of_idt more _ _ _ h2⟩
theorem Members.fit_of_idt : ∀ (ms : Members) (path : List Bytes) (b b' : Idt), ms.scan idtH R path b = .done b' → ms.Fit R path
  | .nil, _, _, _, _ => trivial
  | .cons _ k _ _ v _ more, path, b, b', h => by
    simp only [Members.scan] at h
    by_cases hf : R.Fits path k
    · rw [if_pos hf] at h
      obtain ⟨b1, h1, h2⟩ := Out.bind_done h
      obtain ⟨b2, h3, _⟩ := Out.bind_done h1
      obtain ⟨b3, h4⟩ := Handler.around_done (idtH_enters (by simp) _ _ _) h3
      exact ⟨hf, Val.fit_of_idt v _ _ _ h4, Members.fit_of_idt more _ _ _ h2⟩
    · rw [if_neg hf] at h
      split at h <;> simp at h
end

/-- **C66, partial.** Full statement: if `idtransform` returns `Ok`, then the input begins with a JSON document, and the output is this
document without the space between its tokens (or the input is empty). It is false, see `C66_not_json`. Proved, for any input in any
chunks, with a reader that may fail, a buffer of at least eight bytes and a writer that does not fail: there is a loose document;
unless one of its keys is `#top` or `#array`, the output is this document without space, so with one comma between two
elements and no other junk; nothing behind the document is consumed. -/
theorem C66_output_partial (turns F : Nat) (R : Room) (l : List (Pos × Bytes)) (rj rj' : RJ) (w w' : Writer) (pool pool' : Pool)
    (hu : Usable F rj) (hst : Holds pool R l) (hw : w.plan = []) (h : idtransform turns F rj w pool = ((rj', w', pool'), .ok ())) :
    (Blank rj.rest ∧ w' = w ∧ rj'.rest = []) ∨
    ∃ ws, ∃ v : Val, rj.rest = ws ++ (v.text ++ rj'.rest) ∧ Blank ws ∧ v.Loose (Harmless rj) ∧
      v.Parted rj.b.buf.length rj'.rest ∧ (v.Keys Usual → w' = ⟨w.out ++ v.strip.text, []⟩) := by
  obtain ⟨g, e1, e2⟩ := scan_same (guarded_sim F) turns F ⟨[], true⟩ rj (.new w) (.new w) pool ⟨rfl, hw⟩
  unfold idtransform at h
  rcases hx : scan turns F (Idt.callbacks F) ⟨[], true⟩ ⟨rj, .new w, pool⟩ with ⟨⟨rj1, b1, p1⟩, r⟩
  rw [hx] at h e1 e2
  cases r with
  | ok u =>
    simp only [Prod.mk.injEq, and_true] at h
    obtain ⟨rfl, rfl, rfl⟩ := h
    obtain ⟨rfl, _⟩ := e2.rel
    rcases scan_back (guarded_sees F ⟨Harmless rj, rj.b.buf.length⟩) rfl turns (st := ⟨rj, .new w, pool⟩) ⟨hu, id, rfl⟩ hst e1 with
      ⟨h1, h2, h3⟩ | ⟨ws, v, x, b2, h1, h2, _, h3, _, hp, h4, h5⟩
    · exact .inl ⟨h1, by simp only at h2; rw [h2]; rfl, h3⟩
    · simp only [Tail, ends, if_true] at h5
      obtain ⟨rfl, rfl⟩ := h5
      refine .inr ⟨ws, v, h1, h2, h3, hp, fun hk => ?_⟩
      obtain ⟨b3, e, ho, _⟩ := Val.scan_idt R v (nameTop :: names l) (.new w) (Val.fit_of_idt v _ _ _ h4) hk hw (by simp) (.inl rfl)
      rw [show v.scan idtH R (nameTop :: names l) (.new w) = .done b1 from h4] at e
      injection e with e
      rw [e, ho]
      rfl
  | err e => simp at h
  | panic => simp at h
  | diverge => simp at h

/-! ### Example -/

example : Usable 100 exSt.rj ∧ Holds exPool exRoom [] ∧ Harmless exSt.rj ∧
    idtransform 40 100 exSt.rj ⟨[], []⟩ exPool = ((idtransform 40 100 exSt.rj ⟨[], []⟩ exPool).1, .ok ()) :=
  ⟨usable_new _ _ _ (by decide) (by decide), exPool_holds, .inr (by decide), by decide +kernel⟩

/-! ### The false part -/

/-- **C66, the false part.** `["éé","\"]` (see `C65_half_escape`): the output is this text, which is not JSON. -/
theorem C66_not_json : ∃ reader : Reader, reader.Clean ∧ reader.pending = "[\"éé\",\"\\\"]".toUTF8.toList ∧
    (idtransform 40 100 (.new reader (List.replicate 16 0)) ⟨[], []⟩ exPool).2 = .ok () ∧
    (idtransform 40 100 (.new reader (List.replicate 16 0)) ⟨[], []⟩ exPool).1.2.1.out = reader.pending := by
  refine ⟨[.data 91 [34, 195, 169, 195, 169, 34, 44, 34, 92, 34], .data 93 []], by decide, by decide +kernel, by decide +kernel⟩

end Verif.Scan
