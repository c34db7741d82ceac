import Verif.Scan.Unique

/-!
# An `Ok` for JSON means the right events (C79)
-/

namespace Verif.Scan

open Verif.RJiter
open Verif.RJiter.Jiter
open Verif.U8Pool (Pool PRes PoolError)

variable {β : Type}

/-! ## Space does not matter to an observer -/

theorem around_observer (O : Observer β) (p : Pseudo) (path : List Bytes) (v v' : Val) (inner : β → Out β) :
    O.handler.around p path v inner = O.handler.around p path v' inner := rfl

mutual
theorem Val.scan_strip (O : Observer β) (R : Room) : ∀ (v : Val) (path : List Bytes), v.strip.scan O.handler R path = v.scan O.handler R path
  | .atom _, _ => rfl
  | .arr w items, path => by
    simp only [Val.strip, Val.scan, Items.scan_strip O R items]
    exact around_observer O _ _ _ _ _
  | .obj w ms, path => by
    simp only [Val.strip, Val.scan, Members.scan_strip O R ms]
    exact around_observer O _ _ _ _ _
theorem Items.scan_strip (O : Observer β) (R : Room) : ∀ (is : Items) (path : List Bytes), is.strip.scan O.handler R path = is.scan O.handler R path
  | .nil, _ => rfl
  | .cons _ v _ more, path => by
    simp only [Items.strip, Items.scan, Val.scan_strip O R v, Items.scan_strip O R more]
theorem Members.scan_strip (O : Observer β) (R : Room) : ∀ (ms : Members) (path : List Bytes), ms.strip.scan O.handler R path = ms.scan O.handler R path
  | .nil, _ => rfl
  | .cons _ k _ _ v _ more, path => by
    simp only [Members.strip, Members.scan, Val.scan_strip O R v, Members.scan_strip O R more]
    rfl
end

theorem Docs.scan_strip (O : Observer β) (R : Room) (path : List Bytes) : ∀ {ds ds' : Docs}, ds'.map (·.2.strip) = ds.map (·.2.strip) →
    Docs.scan O.handler R path ds' = Docs.scan O.handler R path ds
  | [], [], _ => rfl
  | [], _ :: _, h => by simp at h
  | _ :: _, [], h => by simp at h
  | (_, v) :: ds, (_, v') :: ds', h => by
    simp only [List.map_cons, List.cons.injEq] at h
    funext b
    simp only [Docs.scan]
    rw [← Val.scan_strip O R v', ← Val.scan_strip O R v, h.1, Docs.scan_strip O R path h.2]

/-! ## The size of the stack does not matter if it is enough -/

theorem Handler.around_same {H : Handler β} {p : Pseudo} {path : List Bytes} {v : Val} {inner inner' : β → Out β}
    (hi : ∀ b b1 b2, inner b = .done b1 → inner' b = .done b2 → b1 = b2) (b b1 b2 : β) (h1 : H.around p path v inner b = .done b1)
    (h2 : H.around p path v inner' b = .done b2) : b1 = b2 := by
  unfold Handler.around at h1 h2
  rcases hs : H.start p path v b with ⟨b', _ | _ | m⟩ <;> rw [hs] at h1 h2
  · exact hi _ _ _ h1 h2
  · simp only [Out.done.injEq] at h1 h2; rw [← h1, ← h2]
  · simp at h1

mutual
theorem Val.scan_room (H : Handler β) (R R' : Room) : ∀ (v : Val) (path : List Bytes) (b b1 b2 : β), v.scan H R path b = .done b1 →
    v.scan H R' path b = .done b2 → b1 = b2
  | .atom _, path, b, b1, b2, h1, h2 => by rw [Val.scan] at h1 h2; rw [h1] at h2; injection h2
  | .arr w items, path, b, b1, b2, h1, h2 => by
    simp only [Val.scan] at h1 h2
    refine Handler.around_same ?_ b b1 b2 h1 h2
    intro b b1 b2 h1 h2
    by_cases hf : R.Fits path nameArray
    · by_cases hf' : R'.Fits path nameArray
      · rw [if_pos hf] at h1
        rw [if_pos hf'] at h2
        obtain ⟨c1, g1, g2⟩ := Out.bind_done h1
        obtain ⟨c2, g3, g4⟩ := Out.bind_done h2
        obtain rfl := Items.scan_room H R R' items _ _ _ _ g1 g3
        rw [g2] at g4; injection g4
      · rw [if_neg hf'] at h2; simp at h2
    · rw [if_neg hf] at h1; simp at h1
  | .obj w ms, path, b, b1, b2, h1, h2 => by
    simp only [Val.scan] at h1 h2
    refine Handler.around_same ?_ b b1 b2 h1 h2
    intro b b1 b2 h1 h2
    obtain ⟨c1, g1, g2⟩ := Out.bind_done h1
    obtain ⟨c2, g3, g4⟩ := Out.bind_done h2
    obtain rfl := Members.scan_room H R R' ms _ _ _ _ g1 g3
    rw [g2] at g4; injection g4
theorem Items.scan_room (H : Handler β) (R R' : Room) : ∀ (is : Items) (path : List Bytes) (b b1 b2 : β), is.scan H R path b = .done b1 →
    is.scan H R' path b = .done b2 → b1 = b2
  | .nil, _, _, _, _, h1, h2 => by rw [Items.scan] at h1 h2; rw [h1] at h2; injection h2
  | .cons _ v _ more, path, b, b1, b2, h1, h2 => by
    simp only [Items.scan] at h1 h2
    obtain ⟨c1, g1, g2⟩ := Out.bind_done h1
    obtain ⟨c2, g3, g4⟩ := Out.bind_done h2
    obtain rfl := Val.scan_room H R R' v _ _ _ _ g1 g3
    exact Items.scan_room H R R' more _ _ _ _ g2 g4
theorem Members.scan_room (H : Handler β) (R R' : Room) : ∀ (ms : Members) (path : List Bytes) (b b1 b2 : β), ms.scan H R path b = .done b1 →
    ms.scan H R' path b = .done b2 → b1 = b2
  | .nil, _, _, _, _, h1, h2 => by rw [Members.scan] at h1 h2; rw [h1] at h2; injection h2
  | .cons _ k _ _ v _ more, path, b, b1, b2, h1, h2 => by
    simp only [Members.scan] at h1 h2
    by_cases hf : R.Fits path k
    · by_cases hf' : R'.Fits path k
      · rw [if_pos hf] at h1
        rw [if_pos hf'] at h2
        obtain ⟨c1, g1, g2⟩ := Out.bind_done h1
        obtain ⟨c2, g3, g4⟩ := Out.bind_done h2
        obtain ⟨d1, e1, e2⟩ := Out.bind_done g1
        obtain ⟨d2, e3, e4⟩ := Out.bind_done g3
        obtain rfl := Handler.around_same (Val.scan_room H R R' v _) _ _ _ e1 e3
        rw [e2] at e4
        injection e4 with e4
        subst e4
        exact Members.scan_room H R R' more _ _ _ _ g2 g4
      · rw [if_neg hf'] at h2; split at h2 <;> simp at h2
    · rw [if_neg hf] at h1; split at h1 <;> simp at h1
end

theorem Docs.scan_room (H : Handler β) (R R' : Room) (path : List Bytes) : ∀ (ds : Docs) (b b1 b2 : β), Docs.scan H R path ds b = .done b1 →
    Docs.scan H R' path ds b = .done b2 → b1 = b2
  | [], b, b1, b2, h1, h2 => by rw [Docs.scan] at h1 h2; rw [h1] at h2; injection h2
  | (_, v) :: ds, b, b1, b2, h1, h2 => by
    simp only [Docs.scan] at h1 h2
    obtain ⟨c1, g1, g2⟩ := Out.bind_done h1
    obtain ⟨c2, g3, g4⟩ := Out.bind_done h2
    obtain rfl := Val.scan_room H R R' v _ _ _ _ g1 g3
    exact Docs.scan_room H R R' path ds _ _ _ g2 g4

/-! ## Documents that meet further rules -/

section
variable {num str : Bytes → Prop} {key : Bytes → Bytes → Prop} {head : Bytes → Bytes → Bytes → Bytes → Prop}

theorem Val.HeadMeets.plain (ws : Bytes) (v : Val) : v.HeadMeets .plain ws := by
  cases v with
  | obj w ms =>
    cases ms with
    | nil => trivial
    | cons => trivial
  | atom => trivial
  | arr => trivial

mutual
theorem Val.Meets.plain : ∀ {v : Val}, v.Meets (.json num str key head) → v.Meets .plain
  | .atom _, h => by
    cases (show IsAtom num str _ from h) with
    | null => exact .null
    | true => exact .true
    | false => exact .false
    | number _ hn _ => exact .number _ hn trivial
    | string body hb _ => exact .string body hb trivial
  | .arr _ is, h => ⟨h.1, Items.Meets.plain (is := is) h.2⟩
  | .obj _ ms, h => ⟨h.1, Members.Meets.plain (ms := ms) h.2⟩
theorem Items.Meets.plain : ∀ {is : Items}, is.Meets (.json num str key head) → is.Meets .plain
  | .nil, _ => trivial
  | .cons _ v _ more, h => ⟨h.1, Val.Meets.plain (v := v) h.2.1, h.2.2.1, Items.Meets.plain (is := more) h.2.2.2⟩
theorem Members.Meets.plain : ∀ {ms : Members}, ms.Meets (.json num str key head) → ms.Meets .plain
  | .nil, _ => trivial
  | .cons _ _ _ _ v _ more, h => ⟨h.1, ⟨h.2.1.1, trivial⟩, h.2.2.1, h.2.2.2.1, Val.Meets.plain (v := v) h.2.2.2.2.1, Val.HeadMeets.plain _ _,
      h.2.2.2.2.2.2.1, Members.Meets.plain (ms := more) h.2.2.2.2.2.2.2⟩
end

theorem Docs.Meets.json {tail : Bytes} : ∀ {ds : Docs}, Docs.Meets (.json num str key head) ds tail → Docs.Json ds tail
  | [], h => h
  | (_, v) :: _, h => ⟨h.1, Val.Meets.plain h.2.1, by
      cases v with
      | atom => exact fun hn => (h.2.2.2.1 hn).1
      | arr => trivial
      | obj => trivial, Docs.Meets.json h.2.2.2.2⟩
end

mutual
theorem Val.keys_strip {P : Bytes → Prop} : ∀ v : Val, v.strip.Keys P ↔ v.Keys P
  | .atom _ => Iff.rfl
  | .arr _ is => Items.keys_strip is
  | .obj _ ms => Members.keys_strip ms
theorem Items.keys_strip {P : Bytes → Prop} : ∀ is : Items, is.strip.Keys P ↔ is.Keys P
  | .nil => Iff.rfl
  | .cons _ v _ is => and_congr (Val.keys_strip v) (Items.keys_strip is)
theorem Members.keys_strip {P : Bytes → Prop} : ∀ ms : Members, ms.strip.Keys P ↔ ms.Keys P
  | .nil => Iff.rfl
  | .cons _ _ _ _ v _ ms => and_congr Iff.rfl (and_congr (Val.keys_strip v) (Members.keys_strip ms))
end

/-! ## C79 -/

/-- **C79, partial.** Full statement: if the input is a sequence of JSON documents and `scan` returns `Ok`, then the callbacks were called for
just these documents, in whatever chunks the input came and whatever the sizes of the buffer and the stack are. It is false, see
`C79_long_number`, and with `stop_early` also `C79_half_escape`. Proved for a buffer of at least eight bytes (`Usable`), if no number that is a
document of its own is longer than the buffer, for a client that does not touch the parser, without SSE tokens. The reader may fail, in which
case there is no `Ok`. An escape that is cut in two (`C65_half_escape`) leads to an error, sooner or later: a quote taken for the end of a string swaps
the inside and the outside of all strings that follow. -/
theorem C79_scan_partial (turns F : Nat) (cb : Callbacks β) (O : Observer β) (R : Room) (l : List (Pos × Bytes)) (st st' : St β) (ds : Docs)
    (tail : Bytes) (hW : Watches cb O) (hu : Usable F st.rj) (hst : Holds st.pool R l) (hr : st.rj.rest = Docs.text ds tail)
    (hj : Docs.Json ds tail) (hs : ∀ d ∈ ds, d.2.Short st.rj.b.buf.length) (h : scan turns F cb ⟨[], false⟩ st = (st', .ok ())) :
    Docs.scan O.handler R (nameTop :: names l) ds st.baton = .done st'.baton ∧ st'.rj.rest = [] := by
  obtain ⟨ds', tail', h1, h2, h3, h4, h5⟩ := C65_accepted_partial turns F cb O R l st st' hW hu hst h
  have := Docs.unique hj (.inl hs) h2 h3 (hr.symm.trans h1)
  rw [Docs.scan_strip O R _ this] at h4
  exact ⟨h4, h5⟩

/-- **C79, partial**, with `stop_early`: the callbacks were called for the first document, and just this document is consumed, with the
space in front of it. Nothing is assumed about what follows, but that it does not continue a number. The input is ASCII or has no backslash
(`Harmless`, see `C79_half_escape`). -/
theorem C79_first_partial (turns F : Nat) (cb : Callbacks β) (O : Observer β) (R : Room) (l : List (Pos × Bytes)) (st st' : St β) (b x : Bytes)
    (v : Val) (hW : Watches cb O) (hu : Usable F st.rj) (hst : Holds st.pool R l) (hr : st.rj.rest = b ++ (v.text ++ x)) (hb : Spaces b)
    (hj : v.Meets .plain) (hx : v.Clear x) (hs : v.Short st.rj.b.buf.length) (hh : Harmless st.rj)
    (h : scan turns F cb ⟨[], true⟩ st = (st', .ok ())) :
    v.scan O.handler R (nameTop :: names l) st.baton = .done st'.baton ∧ st'.rj.rest = x := by
  rcases C65_first_partial turns F cb O R l st st' hW hu hst h with ⟨h1, _, _⟩ | ⟨ws, v', h1, h2, h3, h4, h5⟩
  · obtain ⟨c, t, ev, st⟩ := (Val.Meets.loose (strict := True) hj).1.start
    refine absurd (h1 c ?_) st.1
    rw [hr, ev]; simp
  · rw [eq_true hh] at h3
    obtain ⟨k1, k2⟩ := Val.unique_top hj h3 (.inl trivial) hx h4 (.inl hs) (blank_spaces hb) h2 (hr.symm.trans h1)
    rw [← Val.scan_strip, k1, Val.scan_strip] at h5
    exact ⟨h5, k2⟩

/-- **C79, partial**, in other words: two scans of the same JSON documents, in different chunks, with buffers and stacks of different sizes,
call the callbacks in the same way, if both return `Ok`. -/
theorem C79_agree_partial (turns turns' F F' : Nat) (cb cb' : Callbacks β) (O : Observer β) (R R' : Room) (l l' : List (Pos × Bytes))
    (st st' st2 st2' : St β) (ds : Docs) (tail : Bytes) (hW : Watches cb O) (hW' : Watches cb' O) (hu : Usable F st.rj) (hu' : Usable F' st2.rj)
    (hst : Holds st.pool R l) (hst' : Holds st2.pool R' l') (hl : names l = names l') (hb : st.baton = st2.baton)
    (hr : st.rj.rest = Docs.text ds tail) (hr' : st2.rj.rest = Docs.text ds tail) (hj : Docs.Json ds tail)
    (hs : ∀ d ∈ ds, d.2.Short st.rj.b.buf.length) (hs' : ∀ d ∈ ds, d.2.Short st2.rj.b.buf.length)
    (h : scan turns F cb ⟨[], false⟩ st = (st', .ok ())) (h' : scan turns' F' cb' ⟨[], false⟩ st2 = (st2', .ok ())) : st'.baton = st2'.baton := by
  have h1 := (C79_scan_partial turns F cb O R l st st' ds tail hW hu hst hr hj hs h).1
  have h2 := (C79_scan_partial turns' F' cb' O R' l' st2 st2' ds tail hW' hu' hst' hr' hj hs' h').1
  rw [← hl, ← hb] at h2
  exact Docs.scan_room O.handler R R' _ ds _ _ _ h1 h2

/-- **C79, partial**, for `idtransform`: if it returns `Ok` for a JSON document, then the output is this document without the space between
its tokens (unless it has a key `#top` or `#array`), and just the document is consumed. -/
theorem C79_idtransform_partial (turns F : Nat) (R : Room) (l : List (Pos × Bytes)) (rj rj' : RJ) (w w' : Writer) (pool pool' : Pool) (b x : Bytes)
    (v : Val) (hu : Usable F rj) (hst : Holds pool R l) (hw : w.plan = []) (hr : rj.rest = b ++ (v.text ++ x)) (hb : Spaces b)
    (hj : v.Meets .plain) (hk : v.Keys Usual) (hx : v.Clear x) (hs : v.Short rj.b.buf.length) (hh : Harmless rj)
    (h : idtransform turns F rj w pool = ((rj', w', pool'), .ok ())) :
    w' = ⟨w.out ++ v.strip.text, []⟩ ∧ rj'.rest = x := by
  rcases C66_output_partial turns F R l rj rj' w w' pool pool' hu hst hw h with ⟨h1, _, _⟩ | ⟨ws, v', h1, h2, h3, h4, h5⟩
  · obtain ⟨c, t, ev, st⟩ := (Val.Meets.loose (strict := True) hj).1.start
    refine absurd (h1 c ?_) st.1
    rw [hr, ev]; simp
  · rw [eq_true hh] at h3
    obtain ⟨k1, k2⟩ := Val.unique_top hj h3 (.inl trivial) hx h4 (.inl hs) (blank_spaces hb) h2 (hr.symm.trans h1)
    refine ⟨?_, k2⟩
    rw [h5 ?_, k1]
    exact (Val.keys_strip _).mp (k1 ▸ (Val.keys_strip v).mpr hk)

/-! ### Examples -/

/-- ` [{"k": [1,true]}, "x"] ` at once. -/
def exSt2 : St (List Event) := ⟨.new [.data 32 (exArr.text ++ [32])] (List.replicate 40 0), [], exPool⟩

/-- Byte by byte and at once. -/
example : Watches watch logger ∧ Usable 100 exSt.rj ∧ Usable 100 exSt2.rj ∧ Holds exSt.pool exRoom [] ∧ Holds exSt2.pool exRoom [] ∧
    exSt.rj.rest = Docs.text [([32], exArr)] [32] ∧ exSt2.rj.rest = Docs.text [([32], exArr)] [32] ∧ Docs.Json [([32], exArr)] [32] ∧
    (∀ d ∈ [(([32], exArr) : Bytes × Val)], d.2.Short exSt.rj.b.buf.length ∧ d.2.Short exSt2.rj.b.buf.length) ∧
    scan 60 100 watch ⟨[], false⟩ exSt = ((scan 60 100 watch ⟨[], false⟩ exSt).1, .ok ()) ∧
    scan 60 100 watch ⟨[], false⟩ exSt2 = ((scan 60 100 watch ⟨[], false⟩ exSt2).1, .ok ()) :=
  ⟨watch_logs, usable_new _ _ _ (by decide) (by decide), usable_new _ _ _ (by decide) (by decide), exPool_holds, exPool_holds, by decide, by decide,
    Docs.Meets.json exSt_meets, fun d hd => by simp at hd; subst hd; exact ⟨trivial, trivial⟩,
    by decide +kernel, by decide +kernel⟩

example : Usable 100 exSt1.rj ∧ Holds exSt1.pool exRoom [] ∧ exSt1.rj.rest = [] ++ (exObj.text ++ [93]) ∧ exObj.Meets .plain ∧ exObj.Keys Usual ∧
    exObj.Clear [93] ∧ exObj.Short exSt1.rj.b.buf.length ∧ Harmless exSt1.rj ∧
    scan 60 100 watch ⟨[], true⟩ exSt1 = ((scan 60 100 watch ⟨[], true⟩ exSt1).1, .ok ()) ∧
    idtransform 60 100 exSt1.rj ⟨[], []⟩ exPool = ((idtransform 60 100 exSt1.rj ⟨[], []⟩ exPool).1, .ok ()) :=
  ⟨usable_new _ _ _ (by decide) (by decide), exPool_holds, by decide, Val.Meets.plain (exObj_meets wholeMode 6 (by decide) trivial),
    ⟨⟨by decide +kernel, by decide +kernel⟩, ⟨⟨by decide +kernel, by decide +kernel⟩, trivial, trivial⟩, trivial⟩, trivial, trivial, .inr (by decide), by decide +kernel, by decide +kernel⟩

/-! ### The false parts -/

/-- ` 1234567890123 `, a number of thirteen digits. -/
def exDigits : Val := .atom [49, 50, 51, 52, 53, 54, 55, 56, 57, 48, 49, 50, 51]

theorem exDigits_json : Docs.Json [([32], exDigits)] [32] := by
  have h32 : Spaces [32] := by intro c hc; simp at hc; subst hc; unfold Space; decide
  refine ⟨h32, .number _ ⟨[], _, [], [], by simp; rfl, .inl rfl, .inr ⟨⟨by simp, ?_⟩, by simp⟩, .inl rfl, .inl rfl⟩ trivial, fun _ => ?_, h32⟩
  · intro c hc; simp at hc
    rcases hc with h | h | h | h | h | h | h | h | h | h | h | h | h <;> subst h <;> unfold Digit <;> decide
  · exact endsNumber_of (by unfold Digit; decide)

/-- **C79, a false part.** With a buffer of eight bytes, `scan` returns `Ok` for the document ` 1234567890123 ` and reports two atoms; and
`idtransform` returns `Ok` and writes `12345678`. -/
theorem C79_long_number : ∃ reader : Reader, reader.Clean ∧ reader.pending = Docs.text [([32], exDigits)] [32] ∧ Docs.Json [([32], exDigits)] [32] ∧
    (scan 40 100 watch ⟨[], false⟩ ⟨.new reader (List.replicate 8 0), [], exPool⟩).2 = .ok () ∧
    (scan 40 100 watch ⟨[], false⟩ ⟨.new reader (List.replicate 8 0), [], exPool⟩).1.baton = [.start .atom [nameTop], .start .atom [nameTop]] ∧
    (idtransform 40 100 (.new reader (List.replicate 8 0)) ⟨[], []⟩ exPool).2 = .ok () ∧
    (idtransform 40 100 (.new reader (List.replicate 8 0)) ⟨[], []⟩ exPool).1.2.1.out = [49, 50, 51, 52, 53, 54, 55, 56] :=
  ⟨[.data 32 [49, 50, 51, 52, 53, 54, 55, 56, 57, 48, 49, 50, 51, 32]], by decide, by decide, exDigits_json, by decide +kernel, by decide +kernel,
    by decide +kernel, by decide +kernel⟩

/-- `["éé","\"] "]`, an array of two strings. -/
def exSplit : Val := .arr [] (.cons [] (.atom [34, 195, 169, 195, 169, 34]) [] (.cons [] (.atom [34, 92, 34, 93, 32, 34]) [] .nil))

theorem exSplit_meets : exSplit.Meets .plain := by
  have h0 : Spaces [] := by intro c hc; simp at hc
  have he : RawBody [195, 169, 195, 169] :=
    .char 'é' [195, 169] ⟨by decide, by decide, by decide⟩ (.char 'é' [] ⟨by decide, by decide, by decide⟩ .nil)
  have hq : RawBody [92, 34, 93, 32] :=
    .esc 34 '"' _ (by unfold Escape; decide) (.char ']' [32] ⟨by decide, by decide, by decide⟩ (.char ' ' [] ⟨by decide, by decide, by decide⟩ .nil))
  exact ⟨h0, h0, .string _ he trivial, h0, h0, .string _ hq trivial, h0, trivial⟩

/-- **C79, a false part**, and the reason for `Harmless`: for the document `["éé","\"] "]`, in two chunks, `idtransform` returns `Ok` and writes
`["éé","\"]`, which is not even JSON; and `scan` with `stop_early` stops behind this. -/
theorem C79_half_escape : ∃ reader : Reader, reader.Clean ∧ reader.pending = exSplit.text ∧ exSplit.Meets .plain ∧
    exSplit.text = "[\"éé\",\"\\\"] \"]".toUTF8.toList ∧
    (idtransform 40 100 (.new reader (List.replicate 16 0)) ⟨[], []⟩ exPool).2 = .ok () ∧
    (idtransform 40 100 (.new reader (List.replicate 16 0)) ⟨[], []⟩ exPool).1.2.1.out = "[\"éé\",\"\\\"]".toUTF8.toList ∧
    (scan 40 100 watch ⟨[], true⟩ ⟨.new reader (List.replicate 16 0), [], exPool⟩).2 = .ok () ∧
    (scan 40 100 watch ⟨[], true⟩ ⟨.new reader (List.replicate 16 0), [], exPool⟩).1.rj.rest = " \"]".toUTF8.toList :=
  ⟨[.data 91 [34, 195, 169, 195, 169, 34, 44, 34, 92, 34], .data 93 [32, 34, 93]], by decide, by decide, exSplit_meets, by decide +kernel,
    by decide +kernel, by decide +kernel, by decide +kernel, by decide +kernel⟩

end Verif.Scan
