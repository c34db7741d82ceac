import Verif.Ddb.NormalProps

/-!
# Nesting: 32 levels fit (property C78)

The comments in `ddb_to_normal.rs` (lines 954-959) and `normal_to_ddb.rs` (lines 745-747) say that the context stacks have room for data of 32
levels.
-/

namespace Verif.Ddb

open Verif.RJiter
open Verif.Scan (Val Items Members Docs nameTop nameArray Mode Inv rules Room Usual wholeMode)

mutual
/-- The levels of a value in DynamoDB JSON: lists, maps and sets count. -/
def DVal.levels : DVal → Nat
  | .strings _ _ _ _ => 1
  | .numbers _ _ _ => 1
  | .list _ _ items => 1 + items.levels
  | .map _ _ members => 1 + members.levels
  | _ => 0
@[inherit_doc DVal.levels]
def DItems.levels : DItems → Nat
  | .nil => 0
  | .cons _ v _ more => max v.levels more.levels
@[inherit_doc DVal.levels]
def DMembers.levels : DMembers → Nat
  | .nil => 0
  | .cons _ _ _ _ v _ more => max v.levels more.levels
end

mutual
/-- The levels of a JSON value: arrays and objects count. -/
def levels : Val → Nat
  | .atom _ => 0
  | .arr _ items => 1 + itemsLevels items
  | .obj _ members => 1 + membersLevels members
@[inherit_doc levels]
def itemsLevels : Items → Nat
  | .nil => 0
  | .cons _ v _ more => max (levels v) (itemsLevels more)
@[inherit_doc levels]
def membersLevels : Members → Nat
  | .nil => 0
  | .cons _ _ _ _ v _ more => max (levels v) (membersLevels more)
end

theorem elems_depth : ∀ es : List Elem, (elemsJson es).depth = 0
  | [] => rfl
  | e :: es => by simp [elemsJson, Items.depth, Val.depth, elems_depth es]

theorem wrap_depth (sp : Sp) (name : Bytes) (v : Val) : (sp.wrap name v).depth = 1 + v.depth := by
  simp [Sp.wrap, Val.depth, Members.depth]

mutual
theorem DVal.json_depth : ∀ v : DVal, v.json.depth ≤ 2 * v.levels + 1
  | .string sp b body => by simp only [DVal.json, wrap_depth, Val.depth]; omega
  | .number sp body => by simp only [DVal.json, wrap_depth, Val.depth]; omega
  | .bool sp v => by simp only [DVal.json, wrap_depth, Val.depth]; omega
  | .null sp => by simp only [DVal.json, wrap_depth, Val.depth]; omega
  | .strings sp b w es => by simp only [DVal.json, wrap_depth, Val.depth, elems_depth, DVal.levels]; omega
  | .numbers sp w es => by simp only [DVal.json, wrap_depth, Val.depth, elems_depth, DVal.levels]; omega
  | .list sp w items => by
    have := items.json_depth
    simp only [DVal.json, wrap_depth, Val.depth, DVal.levels]
    omega
  | .map sp w members => by
    have := members.json_depth
    simp only [DVal.json, wrap_depth, Val.depth, DVal.levels]
    omega
theorem DItems.json_depth : ∀ v : DItems, v.json.depth ≤ 2 * v.levels + 1
  | .nil => by simp [DItems.json, Items.depth]
  | .cons _ v _ more => by
    have h1 := v.json_depth
    have h2 := more.json_depth
    simp only [DItems.json, Items.depth, DItems.levels]
    omega
theorem DMembers.json_depth : ∀ v : DMembers, v.json.depth ≤ 2 * v.levels + 2
  | .nil => by simp [DMembers.json, Members.depth]
  | .cons _ _ _ _ v _ more => by
    have h1 := v.json_depth
    have h2 := more.json_depth
    simp only [DMembers.json, Members.depth, DMembers.levels]
    omega
end

theorem DDoc.json_depth (d : DDoc) : d.json.depth ≤ 2 * d.members.levels + 3 := by
  cases d with
  | bare w members =>
    have := members.json_depth
    simp only [DDoc.json, Val.depth, DDoc.members]
    omega
  | item sp w members =>
    have := members.json_depth
    simp only [DDoc.json, wrap_depth, Val.depth, DDoc.members]
    omega

mutual
theorem depth_levels : ∀ v : Val, v.depth ≤ levels v
  | .atom _ => Nat.zero_le _
  | .arr _ items => by
    have := depth_items items
    simp only [Val.depth, levels]
    omega
  | .obj _ members => by
    have := depth_members members
    simp only [Val.depth, levels]
    omega
theorem depth_items : ∀ v : Items, v.depth ≤ itemsLevels v
  | .nil => Nat.zero_le _
  | .cons _ v _ more => by
    have h1 := depth_levels v
    have h2 := depth_items more
    simp only [Items.depth, itemsLevels]
    omega
theorem depth_members : ∀ v : Members, v.depth ≤ 1 + membersLevels v
  | .nil => Nat.zero_le _
  | .cons _ _ _ _ v _ more => by
    have h1 := depth_levels v
    have h2 := depth_members more
    simp only [Members.depth, membersLevels]
    omega
end

/-- Property C78 for `convert_ddb_to_normal`: items of up to 32 levels, with the wrapper or without it, are never too deep. The names are limited
only by the bytes of the context buffer. Partial as C49, and as a set counts as a level: `C78_set_in_maps`. -/
theorem C78_from_ddb_partial (M : Mode) (L F : Nat) (reader : Reader) (rb cb : Bytes) (out : Bytes) (pretty unbuffered asWrapper : Bool) (ds : DDocs)
    (tail : Bytes) (hi : Inv M L F (.new reader rb)) (hcb : 277 ≤ cb.length) (hr : reader.pending = Docs.text ds.json tail)
    (hm : Docs.Meets (rules M L) ds.json tail) (hl : ∀ d ∈ ds, d.2.members.levels ≤ 32)
    (hb : ∀ d ∈ ds, d.2.json.Wide ⟨cb.length - 272, 68, 68⟩ [nameTop]) (hn : ∀ d ∈ ds, d.2.members.Names (· ≠ nameArray))
    (ho : ∀ d ∈ ds, d.2.members.Orderly) (hw : ∀ d ∈ ds, d.2.Reads asWrapper) (turns : Nat) (ht : ds.length + reader.pending.length + 1 ≤ turns) :
    (convertDdbToNormal turns F reader ⟨⟨out, []⟩, []⟩ rb cb pretty unbuffered asWrapper).2 = .ok ∧
    (convertDdbToNormal turns F reader ⟨⟨out, []⟩, []⟩ rb cb pretty unbuffered asWrapper).1.d.w.out = out ++ DDocs.plain pretty ds := by
  refine C49_output_partial M L F reader rb cb out pretty unbuffered asWrapper ds tail hi hcb hr hm ?_ hn ho hw turns ht
  clear hr hm hn ho hw ht
  induction ds with
  | nil => trivial
  | cons d ds ih =>
    refine ⟨(Val.fit_iff (Nat.le_refl 68) d.2.json [nameTop] (hb d List.mem_cons_self) (by simp)).2 ?_,
      ih (fun d hd => hl d (List.mem_cons_of_mem _ hd)) fun d hd => hb d (List.mem_cons_of_mem _ hd)⟩
    have h1 := d.2.json_depth
    have h2 := hl d List.mem_cons_self
    show 1 + d.2.json.depth ≤ 68
    omega

/-- Property C78 for `convert_normal_to_ddb`: an object (one level itself) may hold values of up to 32 levels, as may an array of one level less.
The names are limited only by the bytes of the context buffer. Partial as C47. -/
theorem C78_to_ddb_partial (M : Mode) (L F : Nat) (reader : Reader) (rb cb : Bytes) (out : Bytes) (pretty unbuffered item : Bool) (ds : Docs)
    (tail : Bytes) (hi : Inv M L F (.new reader rb)) (hcb : 141 ≤ cb.length) (hr : reader.pending = Docs.text ds tail)
    (hm : Docs.Meets (rules M L) ds tail) (hl : ∀ d ∈ ds, levels d.2 ≤ 33) (hb : ∀ d ∈ ds, d.2.Wide ⟨cb.length - 136, 34, 34⟩ [nameTop])
    (hk : ∀ d ∈ ds, d.2.Keys Usual) (ha : ∀ d ∈ ds, Atoms Short d.2) (hc : Calm ds) (turns : Nat)
    (ht : ds.length + reader.pending.length + 1 ≤ turns) :
    (convertNormalToDdb turns F reader ⟨⟨out, []⟩, []⟩ rb cb pretty unbuffered item).2 = .ok ∧
    (convertNormalToDdb turns F reader ⟨⟨out, []⟩, []⟩ rb cb pretty unbuffered item).1.d.w.out = out ++ typedDocs item pretty ds := by
  refine C47_output_partial M L F reader rb cb out pretty unbuffered item ds tail hi hcb hr hm ?_ hk ha hc turns ht
  clear hr hm hk ha hc ht
  induction ds with
  | nil => trivial
  | cons d ds ih =>
    refine ⟨(Val.fit_iff (Nat.le_refl 34) d.2 [nameTop] (hb d List.mem_cons_self) (by simp)).2 ?_,
      ih (fun d hd => hl d (List.mem_cons_of_mem _ hd)) fun d hd => hb d (List.mem_cons_of_mem _ hd)⟩
    have h1 := depth_levels d.2
    have h2 := hl d List.mem_cons_self
    show 1 + d.2.depth ≤ 34
    omega

/-! ## Deeper documents are never accepted -/

section
variable {β : Type} {H : Scan.Handler β} {R : Room}

/-- The callbacks take no array and no object as a whole. -/
def Modest (H : Scan.Handler β) : Prop := ∀ p path v b, Scan.Starts p v → (H.start p path v b).2 = .valueIsConsumed → ∃ tok, v = .atom tok

theorem around_done (hH : Modest H) {p : Scan.Pseudo} {path : List Bytes} {v : Val} {inner : β → Scan.Out β} {b b' : β}
    (h : H.around p path v inner b = .done b') (hp : Scan.Starts p v) : (∃ tok, v = .atom tok) ∨ ∃ b1, inner b1 = .done b' := by
  have hc := hH p path v b hp
  unfold Scan.Handler.around at h
  rcases hx : H.start p path v b with ⟨b1, _ | _ | m⟩ <;> rw [hx] at h hc
  · exact .inr ⟨b1, h⟩
  · exact .inl (hc rfl)
  · cases h

mutual
theorem fit_of_done (hH : Modest H) : ∀ (v : Val) (path : List Bytes) (b b' : β), v.scan H R path b = .done b' → v.Fit R path
  | .atom _, _, _, _, _ => trivial
  | .arr _ items, path, b, b', h => by
    rcases around_done hH h trivial with ⟨_, e⟩ | ⟨b1, h⟩
    · cases e
    · split at h
      · rename_i hf
        obtain ⟨b2, h1, _⟩ := Scan.Out.bind_done h
        exact ⟨hf, fit_items hH items _ _ _ h1⟩
      · cases h
  | .obj _ members, path, b, b', h => by
    rcases around_done hH h trivial with ⟨_, e⟩ | ⟨b1, h⟩
    · cases e
    · obtain ⟨b2, h1, _⟩ := Scan.Out.bind_done h
      exact fit_members hH members _ _ _ h1
theorem fit_items (hH : Modest H) : ∀ (v : Items) (path : List Bytes) (b b' : β), v.scan H R path b = .done b' → v.Fit R path
  | .nil, _, _, _, _ => trivial
  | .cons _ v _ more, path, b, b', h => by
    obtain ⟨b2, h1, h2⟩ := Scan.Out.bind_done h
    exact ⟨fit_of_done hH v _ _ _ h1, fit_items hH more _ _ _ h2⟩
theorem fit_members (hH : Modest H) : ∀ (v : Members) (path : List Bytes) (b b' : β), v.scan H R path b = .done b' → v.Fit R path
  | .nil, _, _, _, _ => trivial
  | .cons _ k _ _ v _ more, path, b, b', h => by
    simp only [Members.scan] at h
    split at h
    · rename_i hf
      obtain ⟨b2, h1, h2⟩ := Scan.Out.bind_done h
      obtain ⟨b3, h3, _⟩ := Scan.Out.bind_done h1
      refine ⟨hf, ?_, fit_members hH more _ _ _ h2⟩
      rcases around_done hH h3 trivial with ⟨_, e⟩ | ⟨b4, h4⟩
      · rw [e]; trivial
      · exact fit_of_done hH v _ _ _ h4
    · split at h <;> cases h
end

theorem fit_docs (hH : Modest H) : ∀ (ds : Docs) (path : List Bytes) (b b' : β), Docs.scan H R path ds b = .done b' → Docs.Fit R path ds
  | [], _, _, _, _ => trivial
  | (_, v) :: ds, path, b, b', h => by
    obtain ⟨b2, h1, h2⟩ := Scan.Out.bind_done h
    exact ⟨fit_of_done hH v _ _ _ h1, fit_docs hH ds _ _ _ h2⟩

theorem Modest.guard {K : β → Prop} (hH : Modest H) : Modest (Scan.guardH K H) := by
  intro p path v b hp h
  by_cases hK : K b
  · rw [Scan.guardH_start hK] at h
    exact hH p path v b hp h
  · simp [Scan.guardH, hK] at h

mutual
theorem fit_depth : ∀ (v : Val) (path : List Bytes), v.Fit R path → path.length ≤ R.max → path.length + v.depth ≤ R.max
  | .atom _, _, _, h => h
  | .arr _ items, path, h, _ => by
    have h1 := h.1.1
    have := fit_items_depth items (nameArray :: path) h.2 (by simp only [List.length_cons]; omega)
    simp only [List.length_cons] at this
    simp only [Val.depth]
    omega
  | .obj _ members, path, h, hl => fit_members_depth members path h hl
theorem fit_items_depth : ∀ (v : Items) (path : List Bytes), v.Fit R path → path.length ≤ R.max → path.length + v.depth ≤ R.max
  | .nil, _, _, h => h
  | .cons _ v _ more, path, h, hl => by
    have h1 := fit_depth v path h.1 hl
    have h2 := fit_items_depth more path h.2 hl
    simp only [Items.depth]
    omega
theorem fit_members_depth : ∀ (v : Members) (path : List Bytes), v.Fit R path → path.length ≤ R.max → path.length + v.depth ≤ R.max
  | .nil, _, _, h => h
  | .cons _ k _ _ v _ more, path, h, hl => by
    have h0 := h.1.1
    have h1 := fit_depth v (k :: path) h.2.1 (by simp only [List.length_cons]; omega)
    have h2 := fit_members_depth more path h.2.2 hl
    simp only [List.length_cons] at h1
    simp only [Members.depth]
    omega
end

theorem fit_docs_depth (hR : 1 ≤ R.max) : ∀ (ds : Docs), Docs.Fit R [nameTop] ds → ∀ d ∈ ds, 1 + d.2.depth ≤ R.max
  | [], _, _, hd => nomatch hd
  | (_, v) :: ds, h, d, hd => by
    rcases List.mem_cons.1 hd with rfl | hd
    · exact fit_depth v [nameTop] h.1 hR
    · exact fit_docs_depth hR ds h.2 d hd

end

theorem ToDdb.modest : Modest ToDdb.handler := by
  intro p path v b hp h
  cases v with
  | atom tok => exact ⟨tok, rfl⟩
  | _ =>
    exfalso
    revert h
    cases p with
    | atom => exact hp.elim
    | _ =>
      simp only [ToDdb.handler]
      unfold ToDdb.Step.op
      repeat' split
      all_goals simp

theorem ToNormal.op_none (x : ToNormal.Step) : (x.op .none).2 ≠ .valueIsConsumed := by
  unfold ToNormal.Step.op
  split <;> simp

theorem ToNormal.stringAt_atom {q : Bool} {v : Val} {b : ToNormal} (h : (ToNormal.stringAt q v b).2 = .valueIsConsumed) : ∃ tok, v = .atom tok := by
  cases v with
  | atom tok => exact ⟨tok, rfl⟩
  | arr w is => simp [ToNormal.stringAt, Val.text] at h
  | obj w ms => simp [ToNormal.stringAt, Val.text] at h

theorem ToNormal.boolAt_atom {f : Byte → Bytes × Option String} {name : String} {v : Val} {b : ToNormal} (h1 : (f 91).2 ≠ none) (h2 : (f 123).2 ≠ none)
    (h : (ToNormal.boolAt f name v b).2 = .valueIsConsumed) : ∃ tok, v = .atom tok := by
  cases v with
  | atom tok => exact ⟨tok, rfl⟩
  | arr w is =>
    rcases hx : f 91 with ⟨x, _ | m⟩
    · exact absurd (by rw [hx]) h1
    · simp [ToNormal.boolAt, Val.text, hx] at h
  | obj w ms =>
    rcases hx : f 123 with ⟨x, _ | m⟩
    · exact absurd (by rw [hx]) h2
    · simp [ToNormal.boolAt, Val.text, hx] at h

theorem ToNormal.typeAt_atom {v : Val} {b : ToNormal} (h : (ToNormal.typeAt v b).2 = .valueIsConsumed) : ∃ tok, v = .atom tok := by
  unfold ToNormal.typeAt at h
  split at h
  · cases h
  · split at h
    · exact ToNormal.stringAt_atom h
    · split at h
      · exact ToNormal.stringAt_atom h
      · split at h
        · exact ToNormal.boolAt_atom (by decide) (by decide) h
        · split at h
          · exact ToNormal.boolAt_atom (by decide) (by decide) h
          · split at h
            · exact absurd h (ToNormal.op_none _)
            · split at h
              · exact absurd h (ToNormal.op_none _)
              · split at h
                · exact absurd h (ToNormal.op_none _)
                · split at h
                  · exact absurd h (ToNormal.op_none _)
                  · cases h

theorem ToNormal.modest : Modest ToNormal.handler := by
  intro p path v b hp h
  cases p with
  | atom =>
    cases v with
    | atom tok => exact ⟨tok, rfl⟩
    | _ => exact hp.elim
  | array =>
    exfalso
    simp only [ToNormal.handler] at h
    split at h <;> cases h
  | object =>
    exfalso
    simp only [ToNormal.handler] at h
    split at h
    · exact absurd h (ToNormal.op_none _)
    · repeat' split at h
      all_goals cases h
  | none =>
    simp only [ToNormal.handler] at h
    split at h
    · cases h
    · split at h
      · split at h
        · cases h
        · exact absurd h (ToNormal.op_none _)
      · exact ToNormal.typeAt_atom h
      · split at h
        · exact ToNormal.typeAt_atom h
        · cases h
      · exact absurd h (ToNormal.op_none _)

/-- Property C78, the other direction: a stream with a document that puts more than 33 names below the first one on the context stack is refused.
Partial as the input must be read in a way that a mode covers. -/
theorem C78_to_ddb_deep_partial (M : Mode) (L F : Nat) (reader : Reader) (rb cb : Bytes) (out : Bytes) (pretty unbuffered item : Bool) (ds : Docs)
    (tail : Bytes) (hi : Inv M L F (.new reader rb)) (hcb : 141 ≤ cb.length) (hr : reader.pending = Docs.text ds tail)
    (hm : Docs.Meets (rules M L) ds tail) (hd : ∃ d ∈ ds, 33 < d.2.depth) (turns : Nat) (ht : ds.length + reader.pending.length + 1 ≤ turns) :
    ∃ e pos, (convertNormalToDdb turns F reader ⟨⟨out, []⟩, []⟩ rb cb pretty unbuffered item).2 = .err e pos := by
  obtain ⟨pool, hp, hh⟩ := pool_new cb 34 (by decide) (by decide) (by omega)
  have hrest : (RJ.new reader rb).rest = Docs.text ds tail := by
    rw [← hr, rest_new]
  have h := Scan.scan_docs_on (opt := ⟨[], false⟩) (ToDdb.implements (M := M) (L := L) (F := F)) (ToDdb.callbacks_keep F ToDdb.sound) rfl tail [] ds
    ⟨.new reader rb, .new ⟨⟨out, []⟩, []⟩ item pretty unbuffered, pool⟩ (ToDdb.well_iff.2 ⟨rfl, rfl, rfl⟩) hi (Scan.ready_new _ _)
    (R := ⟨cb.length - 136, 34, 34⟩) hh ⟨by simp [Scan.names], by simp [Scan.names, Scan.usedNames, nameTop]; omega, by decide, by decide, by simp [Scan.names]⟩ hm hrest
  revert h
  cases hx : Docs.scan (Scan.guardH (ToDdb.Well ToDdb.sound) ToDdb.handler) ⟨cb.length - 136, 34, 34⟩ (nameTop :: Scan.names []) ds
    (ToDdb.new ⟨⟨out, []⟩, []⟩ item pretty unbuffered) with
  | done b =>
    obtain ⟨d, hd, hn⟩ := hd
    have : 1 + d.2.depth ≤ 34 := fit_docs_depth (R := ⟨cb.length - 136, 34, 34⟩) (by simp) ds (fit_docs ToDdb.modest.guard ds _ _ _ hx) d hd
    omega
  | stop b f =>
    rintro ⟨st', e, _, _, h⟩
    have h := h turns (by rw [hrest, ← hr]; exact ht)
    unfold convertNormalToDdb
    simp only [hp, h]
    unfold report
    split <;> exact ⟨_, _, rfl⟩

/-- Property C78, the other direction for `convert_ddb_to_normal`, with 67 names; partial as the theorem above. The documents need not be DynamoDB
JSON. -/
theorem C78_from_ddb_deep_partial (M : Mode) (L F : Nat) (reader : Reader) (rb cb : Bytes) (out : Bytes) (pretty unbuffered asWrapper : Bool) (ds : Docs)
    (tail : Bytes) (hi : Inv M L F (.new reader rb)) (hcb : 277 ≤ cb.length) (hr : reader.pending = Docs.text ds tail)
    (hm : Docs.Meets (rules M L) ds tail) (hd : ∃ d ∈ ds, 67 < d.2.depth) (turns : Nat) (ht : ds.length + reader.pending.length + 1 ≤ turns) :
    ∃ e pos, (convertDdbToNormal turns F reader ⟨⟨out, []⟩, []⟩ rb cb pretty unbuffered asWrapper).2 = .err e pos := by
  obtain ⟨pool, hp, hh⟩ := pool_new cb 68 (by decide) (by decide) (by omega)
  have hrest : (RJ.new reader rb).rest = Docs.text ds tail := by
    rw [← hr, rest_new]
  have h := Scan.scan_docs_on (opt := ⟨[], false⟩) (ToNormal.implements (M := M) (L := L) (F := F)) (ToNormal.callbacks_keep F ToNormal.sound) rfl tail [] ds
    ⟨.new reader rb, .new ⟨⟨out, []⟩, []⟩ pretty unbuffered asWrapper, pool⟩ (ToNormal.well_iff.2 ⟨rfl, rfl, by intro k; simp [ToNormal.new]⟩) hi
    (Scan.ready_new _ _)
    (R := ⟨cb.length - 272, 68, 68⟩) hh ⟨by simp [Scan.names], by simp [Scan.names, Scan.usedNames, nameTop]; omega, by decide, by decide, by simp [Scan.names]⟩ hm hrest
  revert h
  cases hx : Docs.scan (Scan.guardH (ToNormal.Well ToNormal.sound) ToNormal.handler) ⟨cb.length - 272, 68, 68⟩ (nameTop :: Scan.names []) ds
    (ToNormal.new ⟨⟨out, []⟩, []⟩ pretty unbuffered asWrapper) with
  | done b =>
    obtain ⟨d, hd, hn⟩ := hd
    have : 1 + d.2.depth ≤ 68 := fit_docs_depth (R := ⟨cb.length - 272, 68, 68⟩) (by simp) ds (fit_docs ToNormal.modest.guard ds _ _ _ hx) d hd
    omega
  | stop b f =>
    rintro ⟨st', e, _, _, h⟩
    have h := h turns (by rw [hrest, ← hr]; exact ht)
    unfold convertDdbToNormal
    simp only [hp, h]
    unfold report
    split <;> exact ⟨_, _, rfl⟩

/-! ## Examples -/

/-- What `C78_from_ddb_partial` asks of the items of the example at `C49_output_partial` in place of `Docs.Fit`: three levels, with the set. -/
example : (∀ d ∈ exItems, d.2.members.levels ≤ 32) ∧ (exItems.map fun d => d.2.members.levels) = [3, 0] ∧
    ∀ d ∈ exItems, d.2.json.Wide ⟨400 - 272, 68, 68⟩ [nameTop] := by
  refine ⟨by decide, by decide, ?_⟩
  intro d hd
  simp only [exItems, List.mem_cons, List.not_mem_nil, or_false] at hd
  rcases hd with rfl | rfl
  · simp only [exDdb, DDoc.json, DMembers.json, DVal.json, DItems.json, elemsJson, Sp.wrap, Val.Wide, Items.Wide, Members.Wide, Room.HasBytes]
    decide
  · simp only [DDoc.json, DMembers.json, DVal.json, Sp.wrap, Val.Wide, Members.Wide, Room.HasBytes]
    decide

/-- What `C78_to_ddb_partial` asks of the stream of the example at `C47_output_partial` in place of `Docs.Fit`. -/
example : (∀ d ∈ exStream, levels d.2 ≤ 33) ∧ (exStream.map fun d => levels d.2) = [0, 1, 1, 1, 0] ∧
    ∀ d ∈ exStream, d.2.Wide ⟨200 - 136, 34, 34⟩ [nameTop] := by
  refine ⟨by decide, by decide, ?_⟩
  intro d hd
  simp only [exStream, List.mem_cons, List.not_mem_nil, or_false] at hd
  rcases hd with rfl | rfl | rfl | rfl | rfl <;> simp only [Val.Wide, Items.Wide, Members.Wide, Room.HasBytes] <;> decide

/-- Arrays in arrays. -/
def nested : Nat → Val
  | 0 => .arr [] .nil
  | n + 1 => .arr [] (.cons [] (nested n) [] .nil)

/-- The hypotheses of the two theorems on deep documents, on 34 and 68 arrays. -/
example : Inv wholeMode 20 400 (.new (whole (Docs.text [([], nested 33)] [])) (List.replicate 100 0)) ∧
    Docs.Meets (rules wholeMode 20) [([], nested 33)] [] ∧ (nested 33).depth = 34 ∧
    Inv wholeMode 20 600 (.new (whole (Docs.text [([], nested 67)] [])) (List.replicate 200 0)) ∧
    Docs.Meets (rules wholeMode 20) [([], nested 67)] [] ∧ (nested 67).depth = 68 := by
  refine ⟨Scan.whole_new _ _ 20 400 (by simp [whole, nested, Docs.text, Val.text, Reader.OneChunk]) (by decide +kernel) (by decide) (by decide +kernel) (by decide +kernel),
    ⟨spaces_nil, plainVal_ok _ (by decide +kernel), head_whole _ _ _, trivial, spaces_nil⟩, by decide +kernel,
    Scan.whole_new _ _ 20 600 (by simp [whole, nested, Docs.text, Val.text, Reader.OneChunk]) (by decide +kernel) (by decide +kernel) (by decide +kernel) (by decide +kernel),
    ⟨spaces_nil, plainVal_ok _ (by decide +kernel), head_whole _ _ _, trivial, spaces_nil⟩, by decide +kernel⟩

/-- Maps in maps, around a value. -/
def mapped (v : DVal) : Nat → DVal
  | 0 => v
  | n + 1 => .map .no [] (.cons [] [97] [] [] (mapped v n) [] .nil)

/-- An attribute of an item in its wrapper. -/
def exAttr (v : DVal) : DDocs := [([], .item .no [] (.cons [] [97] [] [] v [] .nil))]

/-- Negation of C78 for sets that do not count as a level: the string set in 32 maps, in an item with the wrapper, is refused. (In 31 maps it is
accepted, and so is a string in 32 maps, by `C78_from_ddb_partial`.) -/
theorem C78_set_in_maps :
    Docs.Meets (rules wholeMode 20) (exAttr (mapped (.strings .no false [] [⟨[], [120], []⟩]) 32)).json [] ∧
    (convertDdbToNormal 420 2000 (whole (Docs.text (exAttr (mapped (.strings .no false [] [⟨[], [120], []⟩]) 32)).json [])) ⟨⟨[], []⟩, []⟩
      (List.replicate 420 0) (List.replicate 600 0) false false true).2 = .err (.scan (.maxNesting 339 68)) 339 :=
  ⟨⟨spaces_nil, plainVal_ok _ (by decide +kernel), head_whole _ _ _, trivial, spaces_nil⟩, by decide +kernel⟩

end Verif.Ddb
