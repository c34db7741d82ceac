import Verif.Ddb.Sound
import Verif.Ddb.Stuck

/-!
# An `Ok` of `convert_normal_to_ddb` means the right output, however the input is cut (C81)
-/

namespace Verif.Ddb

open Verif.U8Pool (Pool)
open Verif.RJiter
open Verif.Scan

namespace ToDdb

variable {F : Nat} {strict : Care}

/-! ## The callbacks of the converter that stops -/

theorem unspaced : Unspaced handler := by
  intro p path v b hp
  cases p with
  | atom =>
    cases v with
    | atom => rfl
    | arr => exact hp.elim
    | obj => exact hp.elim
  | array => rcases path with _ | ⟨k, r⟩ <;> rfl
  | object => rcases path with _ | ⟨k, r⟩ <;> rfl
  | none => rcases path with _ | ⟨k, r⟩ <;> rfl

theorem saw_act {p : Pseudo} {s : RJ} (f : ToDdb → Step) (b : ToDdb) : Saw F strict p s (fun _ => (f b).op .none) (act f .none s b) := by
  unfold act Step.run
  rcases f b with ⟨b', _ | m⟩
  · exact ⟨rfl, fun _ => rfl⟩
  · trivial

theorem saw_atom {s s1 s2 : RJ} {ws tok : Bytes} {H : Val → ToDdb × StreamOp} (hws : Blank ws) (hr : s.rest = ws ++ s1.rest)
    (ha : Scan.Atom F strict s1 s2 tok) {f : ToDdb → Step} {b : ToDdb} (hH : H (.atom tok) = (f b).op .valueIsConsumed) :
    Saw F strict .atom s H (act f .valueIsConsumed s2 b) := by
  unfold act Step.run
  revert hH
  rcases f b with ⟨b', _ | m⟩
  · intro hH
    obtain ⟨h1, h2, ws2, h3, h4, h5, h6⟩ := ha
    exact ⟨h1, h2, ws ++ ws2, .atom tok, hws.append h3, trivial, h4, fun _ => trivial, h5, by rw [hr, h6, List.append_assoc]; rfl, hH⟩
  · intro _; trivial

theorem onAtom_saw {s : RJ} (hf : Scan.Fine F strict s) {b : ToDdb} (hb : Well sound b) (hl : lame F s = false) :
    Saw F strict .atom s (fun v => (b.atom v.text).op .valueIsConsumed) (onAtom F s b) := by
  obtain ⟨b1, f1, hb1⟩ := (fine_writeComma b).well hb
  unfold onAtom atom
  rw [Step.run_none f1]
  simp only [Step.bind_none f1]
  unfold lame at hl
  rcases hx : s.peek F with ⟨s1, c | e | _ | _⟩
  · obtain ⟨ws, t, e, hws, hc, hs, hm⟩ := RJ.peek_text hf.usable.sync hf.len hf.usable.fuel hx
    have hf1 : Scan.Fine F strict s1 := hf.loop hm hx
    have hag := RJ.peek_again hx
    rw [hx] at hl
    have hws := Blank.of_aws hws
    have hrr : s.rest = ws ++ s1.rest := by rw [e, ← hs]
    simp only at hl ⊢
    by_cases h34 : c = 34
    · subst h34
      rw [if_pos rfl]
      obtain ⟨b2, f2, hb2⟩ := Fine.well (b := b1) (x := b1.indent.bind (put [34, 83, 34, 58, 34] "writing S type opening"))
        ((fine_indent b1).bind (fine_put _ _)) hb1
      unfold onString
      rw [Step.run_none f2]
      rcases hy : s1.writeLongBytes F b2.d.w with ⟨⟨s2, w2⟩, u | e2 | _ | _⟩
      · obtain ⟨body, ha, ho⟩ := string_atom hf1 hs hy
        have hw2 : w2 = ⟨b2.d.w.out ++ body, []⟩ := by
          have := handleLong_wrote .raw F s1 b2.d.w
          rw [show RJ.handleLong .raw F s1 b2.d.w = _ from hy] at this
          refine Writer.clean_eq ?_ ho
          rcases this with h | ⟨_, _, _, h⟩
          · exact h.clean (well_iff.1 hb2).1
          · cases h
        subst hw2
        refine saw_atom hws hrr ha ?_
        simp only [Val.text, spell, List.head?_cons, if_true, List.tail_cons, List.dropLast_concat]
        rw [Step.bind_none f2]
      · trivial
      · trivial
      · trivial
    · rw [if_neg h34]
      by_cases hb0 : c = 116 ∨ c = 102
      · rw [if_pos hb0] at hl ⊢
        unfold onBool
        rw [hag]
        obtain ⟨b2, f2, hb2⟩ := (fine_indent b1).well hb1
        simp only
        rw [Step.run_none f2]
        rcases hb0 with rfl | rfl
        · rw [if_pos rfl]
          revert hl
          rcases hy : s1.knownBool F 116 with ⟨s2, v | e2 | _ | _⟩ <;> intro hl
          · simp only [ignoring]
            refine saw_atom hws hrr (true_atom hf1 hs hy) ?_
            simp [spell, Val.text, Step.bind_none f2]
          · cases hl
          · trivial
          · trivial
        · rw [if_neg (by decide), if_pos rfl]
          revert hl
          rcases hy : s1.knownBool F 102 with ⟨s2, v | e2 | _ | _⟩ <;> intro hl
          · simp only [ignoring]
            refine saw_atom hws hrr (false_atom hf1 hs hy) ?_
            simp [spell, Val.text, Step.bind_none f2]
          · cases hl
          · trivial
          · trivial
      · rw [if_neg hb0] at hl ⊢
        by_cases hn : c = 110
        · subst hn
          rw [if_pos rfl] at hl ⊢
          unfold onNull
          rw [hag]
          simp only [ne_eq, not_true_eq_false, if_false]
          revert hl
          rcases hy : s1.knownNull F with ⟨s2, v | e2 | _ | _⟩ <;> intro hl
          · simp only [ignoring]
            refine saw_atom hws hrr (null_atom hf1 hs hy) ?_
            simp [spell, Val.text]
          · cases hl
          · trivial
          · trivial
        · rw [if_neg hn]
          unfold onNumber
          rcases hy : s1.nextNumberBytes F with ⟨s2, v | e2 | _ | _⟩
          · have ha := number_atom hf1 hy
            refine saw_atom hws hrr ha ?_
            have hhead : ∃ c r, v = c :: r ∧ c ≠ 34 ∧ c ≠ 116 ∧ c ≠ 102 ∧ c ≠ 110 := by
              obtain ⟨_, _, ws2, h3, _, _, h6⟩ := ha
              have hnum : Number v := (C44_next_number s1 F hf1.usable.sync (by have := hf1.len; omega) hf1.usable.fuel s2 v hy).elim
                fun _ h => h.elim fun _ h => h.2.2.1
              obtain ⟨c', r, e', hc'⟩ := number_first hnum
              refine ⟨c', r, e', ?_, ?_, ?_, ?_⟩ <;> (rintro rfl; revert hc'; decide)
            obtain ⟨c', r, rfl, h1, h2, h3, h4⟩ := hhead
            simp [spell, Val.text, h1, h2, h3, h4]
          · trivial
          · trivial
          · trivial
  · trivial
  · trivial
  · trivial

theorem saw_then {p : Pseudo} {s : RJ} {x : Val → Step} {X : (RJ × ToDdb) × Acted} (h : Saw F strict p s (fun v => (x v).op .valueIsConsumed) X) (g : ToDdb → Step) :
    Saw F strict p s (fun v => ((x v).bind g).op .valueIsConsumed) (match (generalizing := false) X with
      | ((rj, b), .op result) => act g result rj b
      | ((rj, b), r) => ((rj, b), r)) := by
  have hop : ∀ v, ((x v).op .valueIsConsumed).2 ≠ .none := by
    intro v
    rcases x v with ⟨b, _ | m⟩ <;> simp [Step.op]
  rcases X with ⟨⟨s', b⟩, (_ | _ | m) | _ | _⟩
  · exact absurd (congrArg (·.2) (h.2 (.atom []))) (hop _)
  · obtain ⟨h1, h2, ws, v, h3, h4, h5, h6, h7, h8, h9⟩ := h
    have hxv : x v = (b, none) := by
      simp only at h9
      generalize x v = y at h9
      rcases y with ⟨b', _ | m⟩ <;> simp only [Step.op, Prod.mk.injEq] at h9
      · rw [h9.1]
      · cases h9.2
    simp only [act, Step.run]
    rcases hg : g b with ⟨b', _ | m⟩
    · refine ⟨h1, h2, ws, v, h3, h4, h5, h6, h7, h8, ?_⟩
      simp only [hxv, bind_mk, hg, op_mk]
    · trivial
  · simp only [act, Step.run]
    rcases g b with ⟨b', _ | m⟩ <;> trivial
  · trivial
  · trivial

theorem onRootLiteral_saw {s : RJ} (hf : Scan.Fine F strict s) {b : ToDdb} (hb : Well sound b) (hl : lame F s = false) :
    Saw F strict .atom s (fun v => (b.literal v.text).op .valueIsConsumed) (onRootLiteral F s b) := by
  obtain ⟨b1, f1, hb1⟩ := Fine.well (b := b) (x := (b.put [123] "writing root literal opening brace").bind inc)
    ((fine_put _ _ b).bind fine_inc) hb
  have := saw_then (onAtom_saw hf hb1 hl) (fun b => (b.put [10] "writing final newline").bind (setComma false))
  unfold onRootLiteral literal
  rw [Step.run_none f1]
  simp only [Step.bind_none f1]
  revert this
  rcases onAtom F s b1 with ⟨⟨s', b'⟩, _ | _ | _⟩ <;> exact id

theorem onElementAtom_saw {s : RJ} (hf : Scan.Fine F strict s) {b : ToDdb} (hb : Well sound b) (hl : lame F s = false) :
    Saw F strict .atom s (fun v => (b.elementBegin.bind (atom v.text)).op .valueIsConsumed) (onElementAtom F s b) := by
  obtain ⟨b1, f1, hb1⟩ := (fine_elementBegin b).well hb
  unfold onElementAtom
  rw [Step.run_none f1]
  simp only [Step.bind_none f1]
  exact onAtom_saw hf hb1 hl

/-- What `sees` needs, for the converter as it is. -/
theorem sights {s : RJ} (hf : Scan.Fine F strict s) (p : Pseudo) (path : List Bytes) {b : ToDdb} (hb : Well sound b) (hl : p = .atom → lame F s = false) :
    Sights F strict p s (fun v => handler.start p path v b) ((callbacks F).find p ⟨path, path.length⟩ b) := by
  simp only [callbacks, find, handler]
  rcases path with _ | ⟨parent, above⟩
  · cases p with
    | none => exact fun _ => rfl
    | object => exact fun _ => rfl
    | atom => exact onAtom_saw hf hb (hl rfl)
    | array => exact saw_act _ b
  · by_cases ht : parent = nameTop
    · simp only [ht, if_true]
      cases p with
      | none => exact fun _ => rfl
      | object => exact saw_act _ b
      | atom => exact onRootLiteral_saw hf hb (hl rfl)
      | array => exact saw_act _ b
    · simp only [ht, if_false]
      by_cases ha : parent = nameArray
      · simp only [ha, if_true]
        cases p with
        | none => exact saw_act _ _
        | object => exact saw_act (fun b => b.elementBegin.bind objectBegin) b
        | atom => exact onElementAtom_saw hf hb (hl rfl)
        | array => exact saw_act (fun b => b.elementBegin.bind arrayBegin) b
      · simp only [ha, if_false]
        cases p with
        | none => exact saw_act _ _
        | object => exact saw_act _ b
        | atom => exact onAtom_saw hf hb (hl rfl)
        | array => exact saw_act _ b

theorem ended_handler (p : Pseudo) (path : List Bytes) (b : ToDdb) : ended ((callbacks F).findEnd p ⟨path, path.length⟩ b) = handler.finish p path b := by
  simp only [callbacks, findEnd, handler]
  rcases path with _ | ⟨parent, above⟩
  · rfl
  · by_cases ht : parent = nameTop
    · simp only [ht, if_true]
      cases p <;> rfl
    · simp only [ht, if_false]
      cases p with
      | none => rfl
      | object => rfl
      | array => rfl
      | atom =>
        simp only
        split <;> rfl

theorem find_atom (path : List Bytes) (b : ToDdb) : ((callbacks F).find .atom ⟨path, path.length⟩ b).2 ≠ none := by
  simp only [callbacks, find]
  rcases path with _ | ⟨parent, above⟩
  · simp
  · simp only
    by_cases ht : parent = nameTop
    · simp [ht]
    · by_cases ha : parent = nameArray
      · subst ha
        simp [ht]
      · simp [ht, ha]

theorem sees : SeesOn (Well sound) (firm F) handler F strict := by
  refine sees_of (fun p path b s hb hf => ?_) fun p path b _ => ended_handler (F := F) p path b
  have h := sights hf p path hb
  unfold firm
  simp only
  have hn : p = .atom → ((callbacks F).find p ⟨path, path.length⟩ b).2 ≠ none := by
    rintro rfl
    exact find_atom path b
  by_cases hp : p = .atom ∧ lame F s = true
  · revert hn
    rcases (callbacks F).find p ⟨path, path.length⟩ b with ⟨b', _ | a⟩ <;> intro hn
    · exact absurd rfl (hn hp.1)
    · simp only [Sights, if_pos hp]
      trivial
  · have h := h (fun e => by cases hx : lame F s <;> simp_all)
    revert h
    rcases (callbacks F).find p ⟨path, path.length⟩ b with ⟨b', _ | a⟩
    · exact id
    · simp only [Sights, if_neg hp]
      exact id

theorem firm_keep (F : Nat) (d : Dest) : Keeps (firm F) (Well d) (fun m _ b => Broken d m b) := by
  have h := callbacks_keep F d
  refine ⟨fun p c b hb => ?_, h.2⟩
  have h := h.1 p c b hb
  simp only [firm]
  revert h
  rcases (callbacks F).find p c b with ⟨b', _ | a⟩
  · exact fun h => ⟨h.1, nofun⟩
  · intro h
    refine ⟨h.1, fun a' e s => ?_⟩
    injection e with e
    subst e
    simp only
    by_cases hp : p = .atom ∧ lame F s = true
    · rw [if_pos hp]
      exact kept_action h.1 (acted_stay s b' (.op (.error "")))
    · rw [if_neg hp]
      exact h.2 a rfl s

/-! ## An `Ok` -/

/-- What an `Ok` means, whatever the writer does. -/
theorem ok_docs {turns F : Nat} {reader : Reader} {d : Dest} {rb cb : Bytes} {pretty unbuffered item : Bool} (hu : Usable F (.new reader rb))
    (hcl : reader.Clean) (h : (convertNormalToDdb turns F reader d rb cb pretty unbuffered item).2 = .ok) :
    ∃ ds tail b', reader.pending = Docs.text ds tail ∧ Docs.Loose (Harmless (.new reader rb)) ds tail ∧ Docs.Parted rb.length ds tail ∧
      Docs.scan guarded ⟨cb.length - 136, 34, 34⟩ [nameTop] ds (Cfg.st ⟨item, false, pretty⟩ d.w.out false none 0) = .done b' ∧
      (convertNormalToDdb turns F reader d rb cb pretty unbuffered item).1.d.w.out = b'.d.w.out := by
  have hp := (C74_to_ddb_partial turns F reader d rb cb pretty unbuffered item).1 (by intro e p; rw [h]; simp)
  rw [h] at hp
  have hout : (convertNormalToDdb turns F reader d rb cb pretty unbuffered item).1.d.w.out =
      (convertNormalToDdb turns F reader d.perfect rb cb pretty false item).1.d.w.out := by rw [hp]; rfl
  rw [hout]
  have h2 : (convertNormalToDdb turns F reader d.perfect rb cb pretty false item).2 = .ok := by rw [hp]
  clear hp hout h
  by_cases hcb : 136 < cb.length
  · obtain ⟨pool, hp, hh⟩ := pool_new cb 34 (by decide) (by decide) (by omega)
    unfold convertNormalToDdb at h2 ⊢
    simp only [hp] at h2 ⊢
    have hK : Well sound (ToDdb.new d.perfect item pretty false) := well_iff.2 ⟨rfl, rfl, rfl⟩
    rcases hs : scan turns F (callbacks F) ⟨[], false⟩ ⟨.new reader rb, .new d.perfect item pretty false, pool⟩ with ⟨st, _ | e | _ | _⟩
    · have hg := guard_scan (firm_keep F sound) turns F ⟨[], false⟩ ⟨.new reader rb, .new d.perfect item pretty false, pool⟩ hK
      rw [scan_firm rfl rfl hu hcl hh hs] at hg
      simp only
      rcases scan_back (guard_sees (sees (F := F) (strict := ⟨Harmless (.new reader rb), rb.length⟩))) rfl turns ⟨hu, id, rfl⟩ hh hg with
        ⟨h1, h3, _⟩ | ⟨ws, v, x, b1, k1, k2, _, k3, _, kp, k4, k5⟩
      · simp only [rest_new] at h1
        exact ⟨[], _, _, rfl, h1, trivial, rfl, by rw [h3]; rfl⟩
      · simp only [Tail, ends, Bool.false_eq_true, if_false] at k5
        obtain ⟨ds, tail, j1, j2, jp, j3, _⟩ := k5
        simp only [rest_new] at k1
        refine ⟨(ws, v) :: ds, tail, _, by rw [k1, j1]; rfl, ⟨k2, k3, j2⟩, ⟨j1 ▸ kp, jp⟩, ?_, rfl⟩
        simp only [names, List.map_cons, List.map_nil] at k4 j3
        simp only [Docs.scan]
        rw [show v.scan guarded ⟨cb.length - 136, 34, 34⟩ [nameTop] (Cfg.st ⟨item, false, pretty⟩ d.w.out false none 0) = .done b1 from k4]
        exact j3
    · rw [hs] at h2
      obtain ⟨_, _, h3⟩ := report_err st.baton.lastError st.rj.currentIndex e
      simp only at h2
      rw [h3] at h2
      cases h2
    · rw [hs] at h2; cases h2
    · rw [hs] at h2; cases h2
  · exfalso
    unfold convertNormalToDdb U8Pool.new at h2
    have : U8Pool.descSize = 4 := rfl
    rw [if_neg (by decide)] at h2
    by_cases hc : cb = []
    · rw [if_pos hc] at h2
      cases h2
    · rw [if_neg hc] at h2
      dsimp only at h2
      rw [if_pos (by rw [this]; omega)] at h2
      cases h2

section
variable {P : Prop}
mutual
theorem loose_cut : ∀ (v : Val), v.Loose P → Atoms Short v → Atoms Cut v
  | .atom tok, h, hs => by
    refine ⟨?_, hs⟩
    cases (show LooseAtom P tok from h) with
    | null => exact .null
    | true => exact .true
    | false => exact .false
    | number _ hn => exact .number _ hn
    | string body _ _ => exact .string body
  | .arr _ is, h, hs => loose_cut_items is h.2 hs
  | .obj _ ms, h, hs => loose_cut_members ms h.2 hs
theorem loose_cut_items : ∀ (is : Items), is.Loose P → AtomsItems Short is → AtomsItems Cut is
  | .nil, _, _ => trivial
  | .cons _ v _ more, h, hs => ⟨loose_cut v h.2.2.1 hs.1, loose_cut_items more h.2.2.2.2 hs.2⟩
theorem loose_cut_members : ∀ (ms : Members), ms.Loose P → AtomsMembers Short ms → AtomsMembers Cut ms
  | .nil, _, _ => trivial
  | .cons _ _ _ _ v _ more, h, hs => ⟨loose_cut v h.2.2.2.2.1 hs.1, loose_cut_members more h.2.2.2.2.2.2 hs.2⟩
end

theorem loose_cut_docs {tail : Bytes} : ∀ {ds : Docs}, Docs.Loose P ds tail → (∀ x ∈ ds, Atoms Short x.2) → ∀ x ∈ ds, Atoms Cut x.2
  | [], _, _, x, hx => by cases hx
  | (b, v) :: ds, h, hs, x, hx => by
    rcases List.mem_cons.1 hx with rfl | hx
    · exact loose_cut v h.2.1 (hs (b, v) (by simp))
    · exact loose_cut_docs h.2.2 (fun y hy => hs y (by simp [hy])) x hx
end

/-- If the documents are ones that the converter gets right, the output is right. -/
theorem ok_typed {P : Prop} {R : Room} {C : Cfg} {out tail : Bytes} {ds : Docs} {b' : ToDdb} (hl : Docs.Loose P ds tail)
    (h : Docs.scan guarded R [nameTop] ds (C.st out false none 0) = .done b') (hk : ∀ x ∈ ds, x.2.Keys Usual)
    (ha : ∀ x ∈ ds, Atoms Short x.2) (hc : Calm ds) : b'.d.w.out = out ++ typedDocs C.item C.pretty ds := by
  obtain ⟨c', f', e⟩ := docs_typed (C := C) R ds out false none nofun hc (fit_docs (Modest.guard modest) _ _ _ _ h) hk (loose_cut_docs hl ha)
  rw [show Docs.scan guarded R [nameTop] ds (C.st out false none 0) = _ from h] at e
  injection e with e
  rw [e]
  rfl

end ToDdb

/-! ## C81 -/

/-- **C81, partial.** Full statement: if `convert_normal_to_ddb` returns `Ok`, then the input is a stream of JSON documents, and the output is
these documents in DynamoDB JSON. It is false, see the witnesses of C47, C64 and C65. Proved, for any input in any chunks, a reader that does not
fail, a writer that may fail, a buffer of at least eight bytes (`Usable`) and any context buffer: after an `Ok` all of the input is a stream of loose
documents (see C65), and under the conditions of C47 they are what was written, with their types. -/
theorem C81_accepted_partial (turns F : Nat) (reader : Reader) (d : Dest) (rb cb : Bytes) (pretty unbuffered item : Bool)
    (hu : Usable F (.new reader rb)) (hcl : reader.Clean) (h : (convertNormalToDdb turns F reader d rb cb pretty unbuffered item).2 = .ok) :
    ∃ ds tail, reader.pending = Docs.text ds tail ∧ Docs.Loose (Harmless (.new reader rb)) ds tail ∧
      ((∀ x ∈ ds, x.2.Keys Usual) → (∀ x ∈ ds, Atoms Short x.2) → Calm ds →
        (convertNormalToDdb turns F reader d rb cb pretty unbuffered item).1.d.w.out = d.w.out ++ typedDocs item pretty ds) := by
  obtain ⟨ds, tail, b', h1, h2, _, h4, h5⟩ := ToDdb.ok_docs hu hcl h
  refine ⟨ds, tail, h1, h2, fun hk ha hc => ?_⟩
  rw [h5]
  exact ToDdb.ok_typed h2 h4 hk ha hc

/-- **C81, partial**, if the input is known to be JSON: the converse of C47 in a sense. An `Ok` means that each of the documents was written with
its types, in whatever chunks the input came. For the conditions `hk`, `ha` and `hc` see C47, for `hs` see `C79_long_number`. -/
theorem C81_output_partial (turns F : Nat) (reader : Reader) (d : Dest) (rb cb : Bytes) (pretty unbuffered item : Bool) (ds : Docs) (tail : Bytes)
    (hu : Usable F (.new reader rb)) (hcl : reader.Clean) (hr : reader.pending = Docs.text ds tail) (hj : Docs.Json ds tail)
    (hs : ∀ x ∈ ds, x.2.Short rb.length) (hk : ∀ x ∈ ds, x.2.Keys Usual) (ha : ∀ x ∈ ds, Atoms Short x.2) (hc : Calm ds)
    (h : (convertNormalToDdb turns F reader d rb cb pretty unbuffered item).2 = .ok) :
    (convertNormalToDdb turns F reader d rb cb pretty unbuffered item).1.d.w.out = d.w.out ++ typedDocs item pretty ds := by
  obtain ⟨ds', tail', b', h1, h2, h3, h4, h5⟩ := ToDdb.ok_docs hu hcl h
  have e := Docs.unique hj (.inl hs) h2 h3 (hr.symm.trans h1)
  rw [show Docs.scan ToDdb.guarded _ _ ds' = _ from Unspaced.docs ToDdb.unspaced.guard _ _ e] at h4
  rw [h5]
  exact ToDdb.ok_typed (P := True) (Docs.Json.loose hj) h4 hk ha hc

/-- **C81, partial**: two runs on the same JSON, whatever it is, in different chunks, with buffers of different sizes and different writers, write
the same if both return `Ok`. The conditions of C47 are not needed. -/
theorem C81_agree_partial (turns turns' F F' : Nat) (reader reader' : Reader) (d d' : Dest) (rb rb' cb cb' : Bytes) (pretty unbuffered unbuffered' item : Bool)
    (ds : Docs) (tail : Bytes) (hu : Usable F (.new reader rb)) (hu' : Usable F' (.new reader' rb')) (hcl : reader.Clean) (hcl' : reader'.Clean)
    (hr : reader.pending = Docs.text ds tail) (hr' : reader'.pending = Docs.text ds tail) (hd : d.w.out = d'.w.out) (hj : Docs.Json ds tail)
    (hs : ∀ x ∈ ds, x.2.Short rb.length) (hs' : ∀ x ∈ ds, x.2.Short rb'.length)
    (h : (convertNormalToDdb turns F reader d rb cb pretty unbuffered item).2 = .ok)
    (h' : (convertNormalToDdb turns' F' reader' d' rb' cb' pretty unbuffered' item).2 = .ok) :
    (convertNormalToDdb turns F reader d rb cb pretty unbuffered item).1.d.w.out =
      (convertNormalToDdb turns' F' reader' d' rb' cb' pretty unbuffered' item).1.d.w.out := by
  obtain ⟨ds1, tail1, b1, h1, h2, h3, h4, h5⟩ := ToDdb.ok_docs hu hcl h
  obtain ⟨ds2, tail2, b2, k1, k2, k3, k4, k5⟩ := ToDdb.ok_docs hu' hcl' h'
  have e1 := Docs.unique hj (.inl hs) h2 h3 (hr.symm.trans h1)
  have e2 := Docs.unique hj (.inl hs') k2 k3 (hr'.symm.trans k1)
  rw [show Docs.scan ToDdb.guarded _ _ ds1 = _ from Unspaced.docs ToDdb.unspaced.guard _ _ e1] at h4
  rw [show Docs.scan ToDdb.guarded _ _ ds2 = _ from Unspaced.docs ToDdb.unspaced.guard _ _ e2, ← hd] at k4
  rw [h5, k5, Docs.scan_room _ _ _ _ ds _ _ _ h4 k4]

/-! ### Examples -/

/-- The documents of C47, byte by byte. -/
def exDrops : Reader := (Docs.text exStream [32]).map fun c => .data c []

theorem exStream_short (L : Nat) (h : 5 ≤ L) : ∀ x ∈ exStream, x.2.Short L := by
  intro x hx
  simp only [exStream, List.mem_cons, List.not_mem_nil, or_false] at hx
  rcases hx with rfl | rfl | rfl | rfl | rfl
  · exact fun _ => by simp; omega
  · trivial
  · trivial
  · trivial
  · exact fun _ => by simp; omega

/-- The hypotheses of `C81_accepted_partial`, `C81_output_partial` and `C81_agree_partial`: the documents byte by byte, with a buffer of eight bytes
and a writer that would fail later; and at once. -/
example : Usable 400 (.new exDrops (List.replicate 8 0)) ∧ exDrops.Clean ∧ exDrops.pending = Docs.text exStream [32] ∧ Docs.Json exStream [32] ∧
    (∀ x ∈ exStream, x.2.Short (List.replicate 8 (0 : Byte)).length) ∧
    (convertNormalToDdb 400 400 exDrops ⟨⟨[], List.replicate 100 none ++ [some ⟨0, 1⟩]⟩, []⟩ (List.replicate 8 0) (List.replicate 200 0) false false true).2 = .ok ∧
    Usable 200 (.new (whole (Docs.text exStream [32])) (List.replicate 40 0)) ∧ (whole (Docs.text exStream [32])).Clean ∧
    (whole (Docs.text exStream [32])).pending = Docs.text exStream [32] ∧ (∀ x ∈ exStream, x.2.Short (List.replicate 40 (0 : Byte)).length) ∧
    (convertNormalToDdb 40 200 (whole (Docs.text exStream [32])) ⟨⟨[], []⟩, []⟩ (List.replicate 40 0) (List.replicate 200 0) false true true).2 = .ok :=
  ⟨usable_new _ _ _ (by decide) (by decide +kernel), by simp [exDrops, exStream, Docs.text, Val.text, Members.text, Items.text, Items.textMore,
      Members.textMore, Reader.Clean], by decide +kernel, Docs.Meets.json exStream_meets, exStream_short _ (by decide), by decide +kernel,
    usable_new _ _ _ (by decide) (by decide +kernel), by simp [whole, exStream, Docs.text, Val.text, Reader.Clean], by decide +kernel,
    exStream_short _ (by decide), by decide +kernel⟩

/-- **C81 is false** without the condition on the length of numbers: with a buffer of eight bytes, the document ` 1234567890123 ` gives an `Ok` and
two documents. -/
theorem C81_long_number : ∃ reader : Reader, reader.Clean ∧ reader.pending = Docs.text [([32], exDigits)] [32] ∧ Docs.Json [([32], exDigits)] [32] ∧
    Usable 100 (.new reader (List.replicate 8 0)) ∧
    (convertNormalToDdb 40 100 reader ⟨⟨[], []⟩, []⟩ (List.replicate 8 0) (List.replicate 200 0) false false false).2 = .ok ∧
    (convertNormalToDdb 40 100 reader ⟨⟨[], []⟩, []⟩ (List.replicate 8 0) (List.replicate 200 0) false false false).1.d.w.out =
      "{\"N\":\"12345678\"}\n{\"N\":\"90123\"}\n".toUTF8.toList :=
  ⟨[.data 32 [49, 50, 51, 52, 53, 54, 55, 56, 57, 48, 49, 50, 51, 32]], by decide, by decide, exDigits_json,
    usable_new _ _ _ (by decide) (by decide +kernel), by decide +kernel, by decide +kernel⟩

/-- **C81 is false** without the condition on the reader: one failure in the middle of `true`, and the document is written twice, see `C64_twice`. -/
theorem C81_faulty : ∃ reader : Reader, ¬ reader.Clean ∧ reader.pending = Docs.text [([], .atom [116, 114, 117, 101])] [32] ∧
    Docs.Json [([], .atom [116, 114, 117, 101])] [32] ∧ Usable 100 (.new reader (List.replicate 16 0)) ∧
    (convertNormalToDdb 50 100 reader ⟨⟨[], []⟩, []⟩ (List.replicate 16 0) (List.replicate 200 0) false false false).2 = .ok ∧
    (convertNormalToDdb 50 100 reader ⟨⟨[], []⟩, []⟩ (List.replicate 16 0) (List.replicate 200 0) false false false).1.d.w.out =
      "{\"BOOL\":true}\n{\"BOOL\":true}\n".toUTF8.toList :=
  ⟨[.data 116 [114], .fail 7, .data 117 [101, 32]], by simp [Reader.Clean], by decide +kernel,
    ⟨spaces_nil, .true, fun h => (by obtain ⟨c, r, e, hc⟩ := number_first h; injection e with e _; subst e; simp at hc), spaces_one⟩,
    usable_new _ _ _ (by decide) (by decide +kernel), by decide +kernel, by decide +kernel⟩

end Verif.Ddb
